/-
Lemmas on stored blocks and on the zlib wrapper.
-/
import Verif.Inflate.Model

namespace Zune.Inflate

theorem leVal_field (l : List UInt8) (q n : Nat) : leVal l / 2 ^ (8 * q) % 2 ^ (8 * n) = leVal ((l.drop q).take n) := by
  rw [leVal_take, leVal_drop]

theorem Bits.drop_ok (b : Bits) (p n : Nat) (h : b.Ok p) (hn : n ≤ b.left) :
    (b.drop n).Ok (p + n) ∧ (b.drop n).left = b.left - n ∧ (b.drop n).src = b.src ∧ (b.drop n).over = b.over ∧ (b.drop n).pos = b.pos :=
  (Bits.get_ok b p n h hn).2

theorem and7 (n : Nat) : n &&& 7 = n % 8 := Nat.and_two_pow_sub_one_eq_mod n 3

theorem shr3 (n : Nat) : n >>> 3 = n / 8 := by rw [Nat.shiftRight_eq_div_pow]

/-- A well formed stored block at the byte boundary `q` behind the block header: its payload is appended and the reader stands
    behind it.  `pos + over` is the position; `over` is unchanged. -/
theorem stored_ok (o : Options) (data out payload rest : List UInt8) (pre p q : Nat) (b : Bits) (h : b.Ok p) (hl : 39 ≤ b.left) (hl2 : b.left < 61)
    (hsrc : b.src = data.drop pre) (hq : p ≤ 8 * q) (hq2 : 8 * q < p + 8) (hlen : payload.length ≤ 65535)
    (hd : b.src.drop q = leBytes 2 payload.length ++ leBytes 2 (65535 - payload.length) ++ payload ++ rest) :
    ∃ pos, stored o data pre b out = (if out.length > o.limit then .error .outputLimitExceeded else
        .ok ({ src := b.src, pos := pos, left := 0, buf := 0, over := b.over }, out ++ payload)) ∧
      pos + b.over = q + 4 + payload.length := by
  have hc := h.count
  have hqlen : q + (4 + payload.length + rest.length) = b.src.length := by
    have := congrArg List.length hd
    rw [List.length_drop] at this
    simp only [List.length_append, leBytes_length] at this
    omega
  obtain ⟨h1, l1, s1, o1, p1⟩ := Bits.drop_ok b p (b.left % 8) h (by omega)
  have e1 : p + b.left % 8 = 8 * q := by omega
  rw [e1] at h1
  obtain ⟨v2, h2, l2, s2, o2, p2⟩ := Bits.get_ok (b.drop (b.left % 8)) (8 * q) 16 h1 (by omega)
  obtain ⟨v3, h3, l3, s3, o3, p3⟩ := Bits.get_ok ((b.drop (b.left % 8)).get 16).2 (8 * q + 16) 16 h2 (by omega)
  have t1 : (b.src.drop q).take 2 = leBytes 2 payload.length := by
    rw [hd, List.append_assoc, List.append_assoc]; exact List.take_left' (leBytes_length _ _)
  have t2 : (b.src.drop (q + 2)).take 2 = leBytes 2 (65535 - payload.length) := by
    rw [← List.drop_drop, hd, List.append_assoc, List.append_assoc, List.drop_left' (leBytes_length _ _)]
    exact List.take_left' (leBytes_length _ _)
  have t3 : (b.src.drop (q + 4)).take payload.length = payload := by
    rw [← List.drop_drop, hd, List.append_assoc, List.drop_left' (by simp [leBytes_length])]
    exact List.take_left' rfl
  rw [s1, show 16 = 8 * 2 by decide, leVal_field, t1, leVal_leBytes] at v2
  rw [s2, s1, show 8 * q + 16 = 8 * (q + 2) by ring, show 16 = 8 * 2 by decide, leVal_field, t2, leVal_leBytes] at v3
  have f2 : payload.length % 256 ^ 2 = payload.length := Nat.mod_eq_of_lt (by omega)
  have f3 : (65535 - payload.length) % 256 ^ 2 = 65535 - payload.length := Nat.mod_eq_of_lt (by omega)
  rw [f2] at v2
  rw [f3] at v3
  simp only [Nat.reduceMul] at v2 v3
  unfold stored
  simp only [and7, shr3]
  have hov : b.over ≤ b.left / 8 := by
    by_cases h0 : 0 < b.over
    · have := h.over_end h0
      omega
    · omega
  rw [if_neg (by omega), v2, v3, if_neg (by omega)]
  simp only [Bits.position, shr3]
  rw [l3, l2, l1, p3, p2, p1, o3, o2, o1]
  have hov2 : 0 < b.over → b.pos = b.src.length := h.over_end
  have hpl := h.pos_le
  have hle : (b.left - b.left % 8 - 16 - 16) / 8 ≤ b.pos := by omega
  have hstart : b.pos - (b.left - b.left % 8 - 16 - 16) / 8 + b.over = q + 4 := by omega
  have hdlen : b.src.length = data.length - pre := by rw [hsrc, List.length_drop]
  rw [show b.pos - (b.left - b.left % 8 - 16 - 16) / 8 + pre + b.over = pre + (q + 4) by omega]
  rw [if_neg (by omega), if_neg (show ¬ b.pos < (b.left - b.left % 8 - 16 - 16) / 8 by omega)]
  refine ⟨payload.length + (b.pos - (b.left - b.left % 8 - 16 - 16) / 8), ?_, by omega⟩
  rw [← List.drop_drop, ← hsrc, t3]
  simp only [Bits.reset, s3, s2, s1, o3, o2, o1]

variable {σ : Type}

/-- The pass of the block loop over a stored block at a byte boundary. -/
theorem blocks_stored (o : Options) (huff : σ → Nat → Bits → List UInt8 → Except Err (σ × Bits × List UInt8)) (st : σ) (fuel : Nat)
    (data out payload rest : List UInt8) (pre q : Nat) (last : Bool) (b : Bits) (h : b.Ok (8 * q)) (hsrc : b.src = data.drop pre)
    (hlen : payload.length ≤ 65535) (hrest : 2 ≤ payload.length + rest.length)
    (hd : b.src.drop q = UInt8.ofNat last.toNat :: (leBytes 2 payload.length ++ leBytes 2 (65535 - payload.length) ++ payload) ++ rest) :
    blocks o data pre huff (fuel + 1) st b out =
      if out.length > o.limit then .error .outputLimitExceeded
      else if last then .ok ({ src := b.src, pos := q + 5 + payload.length, left := 0, buf := 0, over := 0 }, out ++ payload)
      else blocks o data pre huff fuel st { src := b.src, pos := q + 5 + payload.length, left := 0, buf := 0, over := 0 } (out ++ payload) := by
  obtain ⟨r1, r2, r3, r4⟩ := Bits.refill_ok b (8 * q) h
  have hqlen : q + (5 + payload.length + rest.length) = b.src.length := by
    have := congrArg List.length hd
    rw [List.length_drop] at this
    simp only [List.length_append, List.length_cons, leBytes_length] at this
    omega
  have hov : b.refill.over = 0 := r4 (by omega)
  obtain ⟨v1, h1, l1, s1, o1, p1⟩ := Bits.get_ok b.refill (8 * q) 1 r1 (by omega)
  obtain ⟨v2, h2, l2, s2, o2, p2⟩ := Bits.get_ok (b.refill.get 1).2 (8 * q + 1) 2 h1 (by omega)
  have hbyte : leVal b.src / 2 ^ (8 * q) % 2 ^ 8 = last.toNat := by
    rw [show 8 = 8 * 1 by decide, show 8 * 1 * q = 8 * q by ring, leVal_field, hd]
    have ht : List.take 1 (UInt8.ofNat last.toNat :: (leBytes 2 payload.length ++ leBytes 2 (65535 - payload.length) ++ payload) ++ rest) =
      [UInt8.ofNat last.toNat] := rfl
    rw [ht]
    cases last <;> decide +kernel
  have hlast : last.toNat ≤ 1 := by cases last <;> decide
  have v1' : (b.refill.get 1).1 = last.toNat := by
    rw [v1, r3]
    generalize leVal b.src / 2 ^ (8 * q) = X at hbyte
    omega
  have v2' : ((b.refill.get 1).2.get 2).1 = 0 := by
    rw [v2, s1, r3, Nat.pow_add, ← Nat.div_div_eq_div_mul]
    generalize leVal b.src / 2 ^ (8 * q) = X at hbyte
    omega
  have hleft := r1.left_lt
  obtain ⟨pos, e1, e2⟩ := stored_ok o data out payload rest pre (8 * q + 1 + 2) (q + 1) ((b.refill.get 1).2.get 2).2 h2 (by omega) (by omega)
    (by rw [s2, s1, r3, hsrc]) (by omega) (by omega) hlen
    (by rw [s2, s1, r3, ← List.drop_drop, hd]; rfl)
  rw [o2, o1, hov] at e1 e2
  have e3 : pos = q + 5 + payload.length := by omega
  rw [s2, s1, r3, e3] at e1
  rw [blocks]
  simp only [v2', v1', if_true, e1]
  by_cases hlim : out.length > o.limit
  · simp only [hlim, if_true]
  · simp only [hlim, if_false]
    cases last <;> simp

theorem zlibHeader_eq : zlibHeader = [0x78, 0x01] := by decide +kernel

theorem storedBlocks_length (data : List UInt8) : (storedBlocks data).length ≤ data.length + 5 * (data.length / 65535 + 1) ∧ 5 ≤ (storedBlocks data).length := by
  fun_induction storedBlocks data with
  | case1 data h => simp [leBytes_length]; omega
  | case2 data h ih =>
    have hd : (data.drop 65535).length = data.length - 65535 := List.length_drop
    have e : data.length / 65535 = (data.length - 65535) / 65535 + 1 := by
      conv_lhs => rw [show data.length = data.length - 65535 + 65535 by omega]
      rw [Nat.add_div_right _ (by decide)]
    rw [hd] at ih
    simp only [List.length_append, List.length_cons, leBytes_length, List.length_take]
    omega

/-- The block loop on the output of the encoder: it fails when the last block starts behind the limit, and else returns the data. -/
theorem blocks_storedBlocks (o : Options) (huff : σ → Nat → Bits → List UInt8 → Except Err (σ × Bits × List UInt8)) (st : σ) (fuel : Nat)
    (full data out rest : List UInt8) (pre q : Nat) (b : Bits) (h : b.Ok (8 * q)) (hsrc : b.src = full.drop pre) (hrest : 2 ≤ rest.length)
    (hd : b.src.drop q = storedBlocks data ++ rest) (hfuel : (data.length - 1) / 65535 < fuel) :
    blocks o full pre huff fuel st b out =
      if out.length + 65535 * ((data.length - 1) / 65535) > o.limit then .error .outputLimitExceeded else
      .ok ({ src := b.src, pos := q + (storedBlocks data).length, left := 0, buf := 0, over := 0 }, out ++ data) := by
  induction fuel generalizing data out q b with
  | zero => omega
  | succ fuel ih =>
    rw [storedBlocks] at hd ⊢
    by_cases hs : data.length ≤ 65535
    · rw [if_pos hs] at hd ⊢
      rw [blocks_stored o huff st fuel full out data rest pre q true b h hsrc hs (by omega) hd]
      rw [show (data.length - 1) / 65535 = 0 by omega, Nat.mul_zero]
      simp only [if_true, List.length_cons, List.length_append, leBytes_length, Nat.add_zero]
      rw [show q + (2 + 2 + data.length + 1) = q + 5 + data.length by ring]
    · rw [if_neg hs] at hd ⊢
      have hdl : (data.drop 65535).length = data.length - 65535 := List.length_drop
      have htl : (data.take 65535).length = 65535 := by rw [List.length_take]; omega
      have e : (data.length - 1) / 65535 = (data.length - 65535 - 1) / 65535 + 1 := by
        conv_lhs => rw [show data.length - 1 = data.length - 65535 - 1 + 65535 by omega]
        rw [Nat.add_div_right _ (by decide)]
      have hd2 : b.src.drop q = UInt8.ofNat false.toNat :: (leBytes 2 (data.take 65535).length ++ leBytes 2 (65535 - (data.take 65535).length) ++
          data.take 65535) ++ (storedBlocks (data.drop 65535) ++ rest) := by
        rw [hd, htl, List.append_assoc]; rfl
      rw [blocks_stored o huff st fuel full out (data.take 65535) (storedBlocks (data.drop 65535) ++ rest) pre q false b h hsrc (by omega)
        (by rw [htl]; omega) hd2]
      by_cases hlim : out.length > o.limit
      · rw [if_pos hlim, if_pos (by omega)]
      rw [if_neg hlim, if_neg (by decide), htl]
      have hle : q + 5 + 65535 ≤ b.src.length := by
        have := congrArg List.length hd2
        rw [List.length_drop] at this
        simp only [List.length_append, List.length_cons, leBytes_length, htl] at this
        omega
      have hok : Bits.Ok { src := b.src, pos := q + 5 + 65535, left := 0, buf := 0, over := 0 } (8 * (q + 5 + 65535)) :=
        Bits.reset_ok b.src (q + 5 + 65535) 0 hle (by omega)
      rw [ih (data.drop 65535) (out ++ data.take 65535) (q + 5 + 65535) _ hok hsrc ?_ ?_]
      · rw [hdl, List.length_append, htl, e, show out.length + 65535 + 65535 * ((data.length - 65535 - 1) / 65535) =
          out.length + 65535 * ((data.length - 65535 - 1) / 65535 + 1) by ring]
        split
        · rfl
        · simp only [List.length_append, List.length_cons, leBytes_length, htl, List.append_assoc, List.take_append_drop]
          congr 3
          omega
      · show b.src.drop (q + 5 + 65535) = _
        rw [Nat.add_assoc, ← List.drop_drop, hd2]
        exact List.drop_left' (by simp [leBytes_length, htl])
      · rw [hdl]; omega

theorem encodeStored_eq (data : List UInt8) : encodeStored data = storedBlocks data := by
  unfold encodeStored
  by_cases h : data = []
  · subst h
    rw [if_pos rfl, storedBlocks]
    decide +kernel
  · rw [if_neg h]

/-- The encoder never runs out of its output vector. -/
theorem encodeZlib_eq (data : List UInt8) : encodeZlib data = some ([0x78, 0x01] ++ storedBlocks data ++ beBytes 4 (adler32 data)) := by
  unfold encodeZlib
  rw [encodeStored_eq, zlibHeader_eq]
  simp only
  rw [if_pos]
  have h := (storedBlocks_length data).1
  simp only [List.length_append, List.length_cons, List.length_nil, beBytes_length]
  omega

theorem adler32_lt (data : List UInt8) : adler32 data < 2 ^ 32 := by
  rw [c12_adler]
  unfold Spec.adler
  generalize (List.map (fun i => 1 + Spec.byteSum (List.take (i + 1) data)) (List.range data.length)).sum = x
  generalize Spec.byteSum data = y
  omega

end Zune.Inflate
