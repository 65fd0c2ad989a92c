import Verif.Jpeg.HeaderModel
import Verif.Jpeg.HeaderSpec
import Verif.Jpeg.IdctProps
import Verif.Jpeg.HuffProps

/-!
# Lemmas about the reading of JPEG headers
-/

namespace Zune.Jpeg

open Zune.Canon Seg

/-! ## Reading -/

theorem bind_ok {α β : Type} {x : Hd α} {f : α → Hd β} {y : β} :
    x.bind f = .ok y ↔ ∃ a, x = .ok a ∧ f a = .ok y := by
  cases x <;> simp [Except.bind]

theorem u8_ofNat (n : Nat) (h : n < 256) : (UInt8.ofNat n).toNat = n := by
  simp [Nat.mod_eq_of_lt h]

theorem ofNat_u8 (b : UInt8) : UInt8.ofNat b.toNat = b := by simp

theorem u8_lt (b : UInt8) : b.toNat < 256 := b.toNat_lt

theorem u8e_ok {s r : Bytes} {n : Nat} : u8e s = .ok (n, r) ↔ n < 256 ∧ s = UInt8.ofNat n :: r := by
  constructor
  · intro h
    cases s with
    | nil => simp [u8e] at h
    | cons b s =>
      simp only [u8e, Except.ok.injEq, Prod.mk.injEq] at h
      obtain ⟨rfl, rfl⟩ := h
      exact ⟨u8_lt b, by simp⟩
  · rintro ⟨h, rfl⟩
    simp [u8e, Nat.mod_eq_of_lt h]

theorem be16_eq (a b : UInt8) : be16 (a.toNat * 256 + b.toNat) = [a, b] := by
  have ha := u8_lt a
  have hb := u8_lt b
  have h1 : (a.toNat * 256 + b.toNat) / 256 = a.toNat := by omega
  have h2 : UInt8.ofNat (a.toNat * 256 + b.toNat) = b := by
    apply UInt8.toNat_inj.1
    simp
  rw [be16, h1, h2]
  simp

theorem be16_num (n : Nat) (h : n < 65536) :
    (UInt8.ofNat (n / 256)).toNat * 256 + (UInt8.ofNat n).toNat = n := by
  simp
  omega

theorem u16e_ok {s r : Bytes} {n : Nat} : u16e s = .ok (n, r) ↔ n < 65536 ∧ s = be16 n ++ r := by
  constructor
  · intro h
    match s, h with
    | a :: b :: s, h =>
      simp only [u16e, Except.ok.injEq, Prod.mk.injEq] at h
      obtain ⟨rfl, rfl⟩ := h
      have ha := u8_lt a
      have hb := u8_lt b
      exact ⟨by omega, by rw [be16_eq]; rfl⟩
    | [a], h => simp [u16e] at h
    | [], h => simp [u16e] at h
  · rintro ⟨h, rfl⟩
    simp only [be16, List.cons_append, List.nil_append, u16e, Except.ok.injEq, Prod.mk.injEq, and_true]
    exact be16_num n h

theorem exactly_ok {n : Nat} {s a r : Bytes} : exactly n s = .ok (a, r) ↔ a.length = n ∧ s = a ++ r := by
  unfold exactly
  constructor
  · intro h
    split at h
    · simp only [Except.ok.injEq, Prod.mk.injEq] at h
      obtain ⟨rfl, rfl⟩ := h
      exact ⟨by simp; omega, by simp⟩
    · simp at h
  · rintro ⟨rfl, rfl⟩
    simp

theorem peek_ok {n : Nat} {s a : Bytes} : peek n s = .ok a ↔ a.length = n ∧ ∃ r, s = a ++ r := by
  unfold peek
  constructor
  · intro h
    split at h
    · simp only [Except.ok.injEq] at h
      obtain rfl := h
      exact ⟨by simp; omega, s.drop n, by simp⟩
    · simp at h
  · rintro ⟨rfl, r, rfl⟩
    simp

theorem ite_err {α : Type} {c : Prop} [Decidable c] {e : HdrErr} {x : Hd α} {y : α} :
    (if c then .error e else x) = .ok y ↔ ¬ c ∧ x = .ok y := by
  split <;> simp [*]

theorem u8_cons {n : Nat} (h : n < 256) (s : Bytes) : u8e (UInt8.ofNat n :: s) = .ok (n, s) :=
  u8e_ok.2 ⟨h, rfl⟩

theorem u16_app {n : Nat} (h : n < 65536) (s : Bytes) : u16e (be16 n ++ s) = .ok (n, s) :=
  u16e_ok.2 ⟨h, rfl⟩

theorem be16_length (n : Nat) : (be16 n).length = 2 := rfl

/-! ## Last definitions -/

theorem last?_nil {α : Type} (p : α → Bool) : last? p [] = none := rfl

theorem last?_append {α : Type} (p : α → Bool) (a b : List α) :
    last? p (a ++ b) = (last? p b).or (last? p a) := by
  simp [last?, List.filter_append, List.getLast?_append]

theorem last?_cons {α : Type} (p : α → Bool) (x : α) (b : List α) :
    last? p (x :: b) = (last? p b).or (if p x then some x else none) := by
  rw [← List.singleton_append, last?_append]
  congr 1
  by_cases h : p x <;> simp [last?, h]

/-! ## Quantisation tables -/

/-- The table in row major order: the element for row `r` and column `c` is the one whose place in
the walk is `(r, c)`. -/
def natural (vals : List Nat) : List Nat :=
  (List.range 64).map fun k => vals.getD (zigzagWalk.idxOf (k / 8, k % 8)) 0

theorem foldl_set_map {α β : Type} (g : α → β) (p : Nat → Nat) (h : Nat → α) (l : List Nat) (x : List α) :
    l.foldl (fun o i => o.set (p i) (g (h i))) (x.map g) =
      (l.foldl (fun o i => o.set (p i) (h i)) x).map g := by
  induction l generalizing x with
  | nil => rfl
  | cons a l ih => rw [List.foldl_cons, List.foldl_cons, ← ih, List.map_set]

theorem zig_places : (List.range 64).foldl (fun o i => o.set (unZigzag.getD i 0) (some i))
    (List.replicate 64 (none : Option Nat)) =
      (List.range 64).map fun k => some (zigzagWalk.idxOf (k / 8, k % 8)) := by
  decide +kernel

theorem unZig_eq (a : List Nat) : unZig a = natural a := by
  have h := foldl_set_map (fun o : Option Nat => match o with | none => 0 | some i => a.getD i 0)
    (fun i => unZigzag.getD i 0) some (List.range 64) (List.replicate 64 none)
  rw [zig_places, List.map_map, List.map_replicate] at h
  exact h

theorem pairs_eq (n : Nat) (b : Bytes) (h : b.length = 2 * n) :
    ((List.range n).map fun i => (b[2 * i]?.getD 0).toNat * 256 + (b[2 * i + 1]?.getD 0).toNat).flatMap be16 = b := by
  induction n generalizing b with
  | zero => simpa using (List.length_eq_zero_iff.1 h).symm
  | succ n ih =>
    match b, h with
    | x :: y :: b, h =>
      have e := ih b (by simp at h; omega)
      rw [List.range_succ_eq_map, List.map_cons, List.flatMap_cons, List.map_map]
      simp only [Nat.mul_zero, List.getElem?_cons_zero, Option.getD_some, Nat.zero_add, List.getElem?_cons_succ]
      rw [be16_eq]
      simp only [List.cons_append, List.nil_append, List.cons.injEq, true_and]
      refine Eq.trans ?_ e
      congr 1
    | [x], h => simp at h; omega
    | [], h => simp at h

theorem flat_length (v : List Nat) : (v.flatMap be16).length = 2 * v.length := by
  induction v with
  | nil => rfl
  | cons a v ih => rw [List.flatMap_cons, List.length_append, ih, be16_length, List.length_cons]; omega

theorem nums_eq (v : List Nat) (h : ∀ x ∈ v, x < 65536) :
    ((List.range v.length).map fun i =>
      ((v.flatMap be16)[2 * i]?.getD 0).toNat * 256 + ((v.flatMap be16)[2 * i + 1]?.getD 0).toNat) = v := by
  induction v with
  | nil => rfl
  | cons a v ih =>
    have e := ih fun x hx => h x (List.mem_cons_of_mem _ hx)
    rw [List.length_cons, List.range_succ_eq_map, List.map_cons, List.map_map]
    have ha := be16_num a (h a List.mem_cons_self)
    congr 1

theorem map_u8 (v : Bytes) : (v.map (·.toNat)).map UInt8.ofNat = v := by
  rw [List.map_map]
  exact (List.map_congr_left fun b _ => by simp).trans (List.map_id v)

theorem map_nat (v : List Nat) (h : ∀ x ∈ v, x < 256) : (v.map UInt8.ofNat).map (·.toNat) = v := by
  rw [List.map_map]
  refine (List.map_congr_left fun b hb => ?_).trans (List.map_id v)
  simp [Nat.mod_eq_of_lt (h b hb)]

theorem mem_u8 (v : Bytes) : ∀ x ∈ v.map (·.toNat), x < 256 := by
  intro x hx
  obtain ⟨b, _, rfl⟩ := List.mem_map.1 hx
  exact u8_lt b

/-- Tables after those of a segment have been stored. -/
def afterQ (q : Nat → Option (List Nat)) (ts : List QTab) : Nat → Option (List Nat) :=
  fun j => match last? (fun t : QTab => t.id == j) ts with
    | none => q j
    | some t => some (natural t.vals)

theorem afterQ_cons (q : Nat → Option (List Nat)) (t : QTab) (ts : List QTab) :
    afterQ q (t :: ts) = afterQ (upd q t.id (natural t.vals)) ts := by
  funext j
  unfold afterQ
  rw [last?_cons]
  cases last? (fun t : QTab => t.id == j) ts with
  | some u => rfl
  | none =>
    by_cases h : t.id = j
    · simp [h, upd]
    · have : ¬ j = t.id := fun e => h e.symm
      simp [h, upd, this]

theorem q_bytes_narrow (i : Nat) (v : List Nat) :
    (QTab.mk false i v).bytes = UInt8.ofNat i :: v.map UInt8.ofNat := by
  simp [QTab.bytes, ← List.map_eq_flatMap]

theorem q_bytes_wide (i : Nat) (v : List Nat) :
    (QTab.mk true i v).bytes = UInt8.ofNat (16 + i) :: v.flatMap be16 := by
  simp [QTab.bytes]

theorem q_length (t : QTab) (h : t.Ok) : t.bytes.length = 64 * ((if t.wide then 1 else 0) + 1) + 1 := by
  obtain ⟨w, i, v⟩ := t
  obtain ⟨_, h2, _⟩ := h
  cases w
  · rw [q_bytes_narrow]
    simpa using h2
  · rw [q_bytes_wide, List.length_cons, flat_length, h2]
    rfl

theorem qt_read (t : QTab) (h : t.Ok) (r : Bytes) : ∃ info b, t.bytes ++ r = UInt8.ofNat info :: b ∧ info < 256 ∧
    info / 16 = (if t.wide then 1 else 0) ∧ info % 16 = t.id ∧ qtValues (info / 16) b = .ok (t.vals, r) := by
  obtain ⟨w, i, v⟩ := t
  obtain ⟨h1, h2, h3⟩ := h
  simp only at h1 h2 h3
  cases w
  · refine ⟨i, v.map UInt8.ofNat ++ r, by rw [q_bytes_narrow]; rfl, by omega, by simp; omega, by simp; omega, ?_⟩
    rw [show i / 16 = 0 by omega, qtValues, if_pos rfl, exactly_ok.2 ⟨by simpa using h2, rfl⟩]
    simp only [Except.bind]
    rw [map_nat v (by simpa using h3)]
  · refine ⟨16 + i, v.flatMap be16 ++ r, by rw [q_bytes_wide]; rfl, by omega, by simp; omega, by simp; omega, ?_⟩
    rw [show (16 + i) / 16 = 1 by omega, qtValues, if_neg (by omega), if_pos rfl,
      exactly_ok.2 ⟨by rw [flat_length, h2], rfl⟩]
    simp only [Except.bind]
    have := nums_eq v (by simpa using h3)
    rw [h2] at this
    rw [this]

theorem qt_back (info : Nat) (b r : Bytes) (v : List Nat) (h4 : info % 16 < 4)
    (h : qtValues (info / 16) b = .ok (v, r)) :
    ∃ t : QTab, t.Ok ∧ t.vals = v ∧ t.id = info % 16 ∧ (if t.wide then 1 else 0) = info / 16 ∧
      UInt8.ofNat info :: b = t.bytes ++ r := by
  unfold qtValues at h
  split at h
  · rename_i h0
    rw [bind_ok] at h; obtain ⟨⟨w, s⟩, hw, e⟩ := h
    simp only [Except.ok.injEq, Prod.mk.injEq] at e
    obtain ⟨rfl, rfl⟩ := e
    obtain ⟨hl, rfl⟩ := exactly_ok.1 hw
    refine ⟨⟨false, info % 16, w.map (·.toNat)⟩, ⟨h4, by simpa using hl, ?_⟩, rfl, rfl, by simp [h0], ?_⟩
    · simpa using fun x _ => u8_lt x
    · rw [q_bytes_narrow, map_u8, show info % 16 = info by omega]
      rfl
  · split at h
    · rename_i h0 h1
      rw [bind_ok] at h; obtain ⟨⟨w, s⟩, hw, e⟩ := h
      simp only [Except.ok.injEq, Prod.mk.injEq] at e
      obtain ⟨rfl, rfl⟩ := e
      obtain ⟨hl, rfl⟩ := exactly_ok.1 hw
      have key := pairs_eq 64 w hl
      have kl : ((List.range 64).map fun i => (w[2 * i]?.getD 0).toNat * 256 + (w[2 * i + 1]?.getD 0).toNat).length = 64 := by
        rw [List.length_map, List.length_range]
      have km : ∀ x ∈ ((List.range 64).map fun i => (w[2 * i]?.getD 0).toNat * 256 + (w[2 * i + 1]?.getD 0).toNat), x < 65536 := by
        intro x hx
        obtain ⟨i, _, rfl⟩ := List.mem_map.1 hx
        have := u8_lt (w[2 * i]?.getD 0)
        have := u8_lt (w[2 * i + 1]?.getD 0)
        omega
      clear hw
      generalize ((List.range 64).map fun i => (w[2 * i]?.getD 0).toNat * 256 + (w[2 * i + 1]?.getD 0).toNat) = v at *
      refine ⟨⟨true, info % 16, v⟩, ⟨h4, kl, by simpa using km⟩, rfl, rfl, by simp [h1], ?_⟩
      · rw [q_bytes_wide, key, show 16 + info % 16 = info by omega]
        rfl
    · simp at h

theorem dqt_sound (f : Nat) : ∀ (len : Nat) (d : Hdr) (s : Bytes) (d' : Hdr) (r : Bytes),
    dqtLoop f len d s = .ok (d', r) → ∃ ts : List QTab, (∀ t ∈ ts, t.Ok) ∧
      s = ts.flatMap QTab.bytes ++ r ∧ (ts.flatMap QTab.bytes).length = len ∧ d' = { d with qt := afterQ d.qt ts } := by
  induction f with
  | zero => intro len d s d' r h; simp [dqtLoop] at h
  | succ f ih =>
    intro len d s d' r h
    unfold dqtLoop at h
    split at h
    · rename_i h0
      simp only [Except.ok.injEq, Prod.mk.injEq] at h
      obtain ⟨rfl, rfl⟩ := h
      exact ⟨[], by simp, rfl, h0.symm, rfl⟩
    · rw [bind_ok] at h; obtain ⟨⟨info, s1⟩, h1, h⟩ := h
      obtain ⟨hi, rfl⟩ := u8e_ok.1 h1
      replace h := ite_err.1 h; obtain ⟨hlen, h⟩ := h
      rw [bind_ok] at h; obtain ⟨⟨v, s2⟩, h2, h⟩ := h
      replace h := ite_err.1 h; obtain ⟨h4, h⟩ := h
      obtain ⟨t, t1, t2, t3, t4, t5⟩ := qt_back info s1 s2 v (by omega) h2
      obtain ⟨ts, a1, rfl, a3, a4⟩ := ih _ _ _ _ _ h
      refine ⟨t :: ts, ?_, ?_, ?_, ?_⟩
      · intro x hx
        rcases List.mem_cons.1 hx with rfl | hx
        · exact t1
        · exact a1 x hx
      · rw [t5, List.flatMap_cons, List.append_assoc]
      · rw [List.flatMap_cons, List.length_append, a3, q_length t t1, t4]
        omega
      · rw [a4, afterQ_cons, t2, t3, unZig_eq]

theorem dqt_complete (ts : List QTab) (h : ∀ t ∈ ts, t.Ok) : ∀ (f : Nat) (d : Hdr) (r : Bytes),
    (ts.flatMap QTab.bytes).length < f →
    dqtLoop f (ts.flatMap QTab.bytes).length d (ts.flatMap QTab.bytes ++ r) =
      .ok ({ d with qt := afterQ d.qt ts }, r) := by
  induction ts with
  | nil =>
    intro f d r hf
    obtain ⟨f, rfl⟩ : ∃ g, f = g + 1 := ⟨f - 1, by simp at hf; omega⟩
    simp [dqtLoop]
    rfl
  | cons t ts ih =>
    intro f d r hf
    have ht := h t List.mem_cons_self
    have hl := q_length t ht
    obtain ⟨info, b, e1, e2, e3, e4, e5⟩ := qt_read t ht (ts.flatMap QTab.bytes ++ r)
    rw [List.flatMap_cons, List.length_append] at hf ⊢
    obtain ⟨f, rfl⟩ : ∃ g, f = g + 1 := ⟨f - 1, by omega⟩
    rw [List.append_assoc, e1, dqtLoop, if_neg (by omega), u8_cons e2]
    simp only [Except.bind]
    rw [if_neg (by omega), e5]
    simp only
    rw [if_neg (by have := ht.1; omega), e3, e4, ← hl, Nat.add_sub_cancel_left,
      ih (fun x hx => h x (List.mem_cons_of_mem _ hx)) _ _ _ (by omega), unZig_eq, afterQ_cons]

theorem body_read {b r : Bytes} (h : b.length + 2 < 65536) : u16e (body b ++ r) = .ok (b.length + 2, b ++ r) := by
  rw [body, List.append_assoc, u16_app h]

theorem parseDqt_iff (d d' : Hdr) (s r : Bytes) : parseDqt d s = .ok (d', r) ↔
    ∃ ts : List QTab, (∀ t ∈ ts, t.Ok) ∧ (ts.flatMap QTab.bytes).length + 2 < 65536 ∧
      s = body (ts.flatMap QTab.bytes) ++ r ∧ d' = { d with qt := afterQ d.qt ts } := by
  constructor
  · intro h
    unfold parseDqt at h
    rw [bind_ok] at h; obtain ⟨⟨n, s1⟩, h1, h⟩ := h
    obtain ⟨hn, rfl⟩ := u16e_ok.1 h1
    replace h := ite_err.1 h; obtain ⟨h2, h⟩ := h
    obtain ⟨ts, a, rfl, c, e⟩ := dqt_sound _ _ _ _ _ _ h
    refine ⟨ts, a, by omega, ?_, e⟩
    rw [body, c, List.append_assoc, show n - 2 + 2 = n by omega]
  · rintro ⟨ts, a, b, rfl, rfl⟩
    rw [parseDqt, body_read b]
    simp only [Except.bind]
    rw [if_neg (by omega)]
    exact dqt_complete ts a _ d r (by omega)

/-! ## Huffman tables -/

theorem count_eq (t : HTab) (h : ∀ c ∈ t.counts, c < 256) : countsOf (t.counts.map UInt8.ofNat) = t.count := by
  funext l
  cases l with
  | zero => rfl
  | succ l =>
    simp only [countsOf, HTab.count, List.getElem?_map]
    cases hc : t.counts[l]? with
    | none => rfl
    | some c => simp [Nat.mod_eq_of_lt (h c (List.mem_of_getElem? hc))]

theorem syms_eq (t : HTab) (h : ∀ c ∈ t.syms, c < 256) (i : Nat) :
    symbolsOf (t.syms.map UInt8.ofNat) i = t.syms[i]?.getD 0 := by
  simp only [symbolsOf, List.getElem?_map]
  cases hc : t.syms[i]? with
  | none => rfl
  | some c => simp [Nat.mod_eq_of_lt (h c (List.mem_of_getElem? hc))]

theorem before_sum (t : HTab) (k : Nat) (h : k ≤ t.counts.length) :
    before t.count (k + 1) = (t.counts.take k).sum := by
  induction k with
  | zero => simp [before, HTab.count]
  | succ k ih =>
    have hk : k < t.counts.length := by omega
    rw [before, ih (by omega), List.take_add_one, List.sum_append, List.getElem?_eq_getElem hk]
    simp only [HTab.count, List.getElem?_eq_getElem hk]
    simp

theorem before_all (t : HTab) (h : t.counts.length = 16) : before t.count 17 = t.counts.sum := by
  rw [before_sum t 16 (by omega), ← h, List.take_length]

/-- The decoder's table for `t`. -/
def Built (t : HTab) (u : Huff) : Prop :=
  t.ReadBy u.decode ∧ Huff.new t.count (symbolsOf (t.syms.map UInt8.ofNat)) (!t.ac) = .ok u

theorem ht_new (t : HTab) (h : t.Ok) : ∃ u, Huff.new (countsOf (t.counts.map UInt8.ofNat))
    (symbolsOf (t.syms.map UInt8.ofNat)) (!t.ac) = .ok u ∧ Built t u := by
  obtain ⟨h1, h2, h3, h4, h5, h6, h7, h8⟩ := h
  rw [count_eq t h3]
  have hb := before_all t h2
  have hacc := (c42_accepts t.count (symbolsOf (t.syms.map UInt8.ofNat)) (!t.ac) rfl).2
    ⟨h7, by omega, by
      intro ha i hi
      rw [syms_eq t h4]
      have hi' : i < t.syms.length := by omega
      rw [List.getElem?_eq_getElem hi']
      exact h8 (by simpa using ha) _ (List.getElem_mem hi')⟩
  obtain ⟨u, hu⟩ := hacc
  have hv : ∀ p, symbolsOf (t.syms.map UInt8.ofNat) p < 256 := fun p => u8_lt _
  refine ⟨u, hu, ⟨?_, ?_⟩, hu⟩
  · intro l k w a b c e
    have hlt := before_lt (cnt := t.count) (l := l) (m := 17) (by omega)
    have hi : before t.count l + k < t.syms.length := by omega
    refine ⟨t.syms[before t.count l + k], List.getElem?_eq_getElem hi, ?_⟩
    have := c42_symbol _ _ _ u hu rfl hv l k a b c w e
    rw [this, syms_eq t h4, List.getElem?_eq_getElem hi]
    rfl
  · intro w hw
    exact c42_reject _ _ _ u hu rfl w hw

theorem h_bytes (t : HTab) : t.bytes = UInt8.ofNat ((if t.ac then 16 else 0) + t.id) ::
    (t.counts.map UInt8.ofNat ++ t.syms.map UInt8.ofNat) := rfl

theorem h_length (t : HTab) (h : t.Ok) : t.bytes.length = 17 + t.counts.sum := by
  obtain ⟨h1, h2, h3, h4, h5, h6, h7, h8⟩ := h
  rw [h_bytes]
  simp
  omega

/-- How tables of one class change by a segment. -/
def AfterH (c : Bool) (old new : Nat → Option Huff) (ts : List HTab) : Prop :=
  ∀ j, match last? (fun t : HTab => t.ac == c && t.id == j) ts with
    | none => new j = old j
    | some t => ∃ u, new j = some u ∧ Built t u

theorem AfterH.nil (c : Bool) (old : Nat → Option Huff) : AfterH c old old [] := fun _ => rfl

theorem AfterH.cons {c : Bool} {old new : Nat → Option Huff} {ts : List HTab} (t : HTab) (u : Huff)
    (hc : t.ac = c) (hu : Built t u) (h : AfterH c (upd old t.id u) new ts) :
    AfterH c old new (t :: ts) := by
  intro j
  have := h j
  rw [last?_cons]
  cases hl : last? (fun t : HTab => t.ac == c && t.id == j) ts with
  | some x => rw [hl] at this; exact this
  | none =>
    rw [hl] at this
    by_cases hj : t.id = j
    · simp only [upd, hj, if_true] at this
      simpa [hc, hj] using ⟨u, this, hu⟩
    · have hj' : ¬ j = t.id := fun e => hj e.symm
      simp only [upd, if_neg hj'] at this
      simpa [hc, hj] using this

theorem AfterH.skip {c : Bool} {old new : Nat → Option Huff} {ts : List HTab} (t : HTab) (hc : t.ac ≠ c)
    (h : AfterH c old new ts) : AfterH c old new (t :: ts) := by
  intro j
  have := h j
  rw [last?_cons]
  cases hl : last? (fun t : HTab => t.ac == c && t.id == j) ts with
  | some x => rw [hl] at this; exact this
  | none => rw [hl] at this; simpa [hc] using this

theorem ofHuff_ok {x : Except HuffErr Huff} {t : Huff} : ofHuff x = .ok t ↔ x = .ok t := by
  rcases x with e | u
  · cases e <;> simp [ofHuff]
  · simp [ofHuff]

theorem dht_sound (f : Nat) : ∀ (len : Nat) (d : Hdr) (s : Bytes) (d' : Hdr) (r : Bytes),
    dhtLoop f len d s = .ok (d', r) → ∃ (ts : List HTab) (dc ac : Nat → Option Huff), (∀ t ∈ ts, t.Ok) ∧
      s = ts.flatMap HTab.bytes ++ r ∧ (ts.flatMap HTab.bytes).length = len ∧
      d' = { d with dc := dc, ac := ac } ∧ AfterH false d.dc dc ts ∧ AfterH true d.ac ac ts := by
  induction f with
  | zero => intro len d s d' r h; simp [dhtLoop] at h
  | succ f ih =>
    intro len d s d' r h
    unfold dhtLoop at h
    split at h
    · rename_i h0
      replace h := ite_err.1 h; obtain ⟨hz, h⟩ := h
      simp only [Except.ok.injEq, Prod.mk.injEq] at h
      obtain ⟨rfl, rfl⟩ := h
      exact ⟨[], d.dc, d.ac, by simp, rfl, by simp; omega, rfl, AfterH.nil _ _, AfterH.nil _ _⟩
    · rw [bind_ok] at h; obtain ⟨⟨info, s1⟩, h1, h⟩ := h
      obtain ⟨hi, rfl⟩ := u8e_ok.1 h1
      replace h := ite_err.1 h; obtain ⟨h4, h⟩ := h
      replace h := ite_err.1 h; obtain ⟨h2, h⟩ := h
      rw [bind_ok] at h; obtain ⟨⟨c, s2⟩, hc, h⟩ := h
      obtain ⟨hcl, rfl⟩ := exactly_ok.1 hc
      replace h := ite_err.1 h; obtain ⟨h256, h⟩ := h
      replace h := ite_err.1 h; obtain ⟨hlen, h⟩ := h
      rw [bind_ok] at h; obtain ⟨⟨v, s3⟩, hv, h⟩ := h
      obtain ⟨hvl, rfl⟩ := exactly_ok.1 hv
      rw [bind_ok] at h; obtain ⟨u, hu, h⟩ := h
      rw [ofHuff_ok] at hu
      obtain ⟨ts, dc, ac, a1, rfl, a3, a4, a5, a6⟩ := ih _ _ _ _ _ h
      clear h hv hc h1
      have e1 : (c.map (·.toNat)).map UInt8.ofNat = c := map_u8 c
      have e2 : (v.map (·.toNat)).map UInt8.ofNat = v := map_u8 v
      have hac : (info / 16 % 16 = 0 ∧ info < 16) ∨ (info / 16 % 16 = 1 ∧ 16 ≤ info) := by omega
      let t : HTab := ⟨decide (16 ≤ info), info % 16, c.map (·.toNat), v.map (·.toNat)⟩
      have hdc : decide (info / 16 % 16 = 0) = !t.ac := by
        show _ = !decide (16 ≤ info)
        rcases hac with ⟨p, q⟩ | ⟨p, q⟩
        · simp [p]; omega
        · simp [p]; omega
      have hcnt := count_eq t (mem_u8 c)
      have hok : t.Ok := by
        have hx := (c42_accepts (countsOf c) (symbolsOf v) _ rfl).1 ⟨u, hu⟩
        rw [hdc, show countsOf c = t.count by rw [← hcnt]; show _ = countsOf ((c.map (·.toNat)).map _); rw [e1]] at hx
        obtain ⟨x1, x2, x3⟩ := hx
        have hb := before_all t (by show (c.map (·.toNat)).length = 16; simpa using hcl)
        refine ⟨by show info % 16 < 4; omega, by show (c.map (·.toNat)).length = 16; simpa using hcl,
          mem_u8 c, mem_u8 v, by show (v.map (·.toNat)).length = _; simpa using hvl,
          by show (v.map (·.toNat)).length ≤ _; simp; omega, x1, ?_⟩
        intro hf x hx
        obtain ⟨i, hi1, hi2⟩ := List.mem_iff_getElem.1 hx
        have hil : i < v.length := by
          have : (v.map (·.toNat)).length = v.length := List.length_map _
          have h' : i < (v.map (·.toNat)).length := hi1
          omega
        have := x3 (by simp [hf]) i (by rw [hb]; show i < (c.map (·.toNat)).sum; omega)
        rw [show symbolsOf v i = x by
          rw [← hi2]
          show (v[i]?.getD 0).toNat = (v.map (·.toNat))[i]
          rw [List.getElem?_eq_getElem hil, List.getElem_map]
          rfl] at this
        exact this
      obtain ⟨u', hu', hr⟩ := ht_new t hok
      have huu : u' = u := by
        have q : Huff.new (countsOf ((c.map (·.toNat)).map UInt8.ofNat)) (symbolsOf ((v.map (·.toNat)).map UInt8.ofNat)) (!t.ac) = .ok u' := hu'
        rw [e1, e2, ← hdc, hu] at q
        exact (Except.ok.inj q).symm
      subst huu
      have hbytes : UInt8.ofNat info :: (c ++ v) = t.bytes := by
        rw [h_bytes]
        show _ = UInt8.ofNat ((if decide (16 ≤ info) = true then 16 else 0) + info % 16) ::
          ((c.map (·.toNat)).map UInt8.ofNat ++ (v.map (·.toNat)).map UInt8.ofNat)
        rw [e1, e2]
        congr 2
        rcases hac with ⟨p, q⟩ | ⟨p, q⟩
        · rw [if_neg (by simp; omega)]; omega
        · rw [if_pos (by simp; omega)]; omega
      have hlen' : t.bytes.length = 17 + (c.map (·.toNat)).sum := h_length t hok
      refine ⟨t :: ts, dc, ac, ?_, ?_, ?_, ?_, ?_, ?_⟩
      · intro x hx
        rcases List.mem_cons.1 hx with rfl | hx
        · exact hok
        · exact a1 x hx
      · rw [List.flatMap_cons, List.append_assoc, ← hbytes]
        simp
      · rw [List.flatMap_cons, List.length_append, a3, hlen']
        omega
      · rw [a4]
        split <;> rfl
      · rcases hac with ⟨p, q⟩ | ⟨p, q⟩
        · rw [if_pos p] at a5
          exact AfterH.cons t u' (by show decide _ = false; simp; omega) hr a5
        · rw [if_neg (by omega)] at a5
          exact AfterH.skip t (by show decide _ ≠ false; simp; omega) a5
      · rcases hac with ⟨p, q⟩ | ⟨p, q⟩
        · rw [if_pos p] at a6
          exact AfterH.skip t (by show decide _ ≠ true; simp; omega) a6
        · rw [if_neg (by omega)] at a6
          exact AfterH.cons t u' (by show decide _ = true; simp; omega) hr a6

theorem dht_complete (ts : List HTab) (h : ∀ t ∈ ts, t.Ok) : ∀ (f : Nat) (d : Hdr) (r : Bytes),
    (ts.flatMap HTab.bytes).length < f →
    ∃ dc ac, dhtLoop f (ts.flatMap HTab.bytes).length d (ts.flatMap HTab.bytes ++ r) =
      .ok ({ d with dc := dc, ac := ac }, r) ∧ AfterH false d.dc dc ts ∧ AfterH true d.ac ac ts := by
  induction ts with
  | nil =>
    intro f d r hf
    obtain ⟨f, rfl⟩ : ∃ g, f = g + 1 := ⟨f - 1, by simp at hf; omega⟩
    exact ⟨d.dc, d.ac, by simp [dhtLoop], AfterH.nil _ _, AfterH.nil _ _⟩
  | cons t ts ih =>
    intro f d r hf
    have ht := h t List.mem_cons_self
    have hl := h_length t ht
    obtain ⟨u, hu, hr⟩ := ht_new t ht
    obtain ⟨h1, h2, h3, h4, h5, h6, h7, h8⟩ := ht
    rw [List.flatMap_cons, List.length_append] at hf ⊢
    obtain ⟨f, rfl⟩ : ∃ g, f = g + 1 := ⟨f - 1, by omega⟩
    have hinfo : (if t.ac then 16 else 0) + t.id < 256 := by split <;> omega
    have hmod : ((if t.ac then 16 else 0) + t.id) % 16 = t.id := by split <;> omega
    have hcls : ((if t.ac then 16 else 0) + t.id) / 16 % 16 = if t.ac then 1 else 0 := by split <;> omega
    have hdc : decide (((if t.ac then 16 else 0) + t.id) / 16 % 16 = 0) = !t.ac := by
      rw [hcls]; cases t.ac <;> rfl
    have hsum : ((t.counts.map UInt8.ofNat).map (·.toNat)).sum = t.counts.sum := by rw [map_nat _ h3]
    obtain ⟨dc, ac, e, e1, e2⟩ := ih (fun x hx => h x (List.mem_cons_of_mem _ hx)) f
      (if t.ac then { d with ac := upd d.ac t.id u } else { d with dc := upd d.dc t.id u }) r (by omega)
    refine ⟨dc, ac, ?_, ?_, ?_⟩
    · rw [dhtLoop, if_neg (by omega), h_bytes, List.cons_append, List.cons_append, u8_cons hinfo]
      simp only [Except.bind]
      rw [hmod, if_neg (by omega), hcls, if_neg (by split <;> omega),
        List.append_assoc, List.append_assoc, exactly_ok.2 ⟨by simpa using h2, rfl⟩]
      simp only
      rw [hsum, if_neg (by omega), if_neg (by rw [← h_bytes]; omega),
        exactly_ok.2 ⟨by simpa using h5, rfl⟩]
      simp only
      rw [← hcls, hdc, hu]
      simp only [ofHuff]
      rw [hcls, ← h_bytes]
      have : t.bytes.length + (ts.flatMap HTab.bytes).length - 17 - t.counts.sum = (ts.flatMap HTab.bytes).length := by omega
      rw [this]
      cases hta : t.ac
      · simp only [hta, Bool.false_eq_true, if_false] at e ⊢
        simpa using e
      · simp only [hta, if_true] at e ⊢
        simpa using e
    · cases hta : t.ac
      · rw [hta] at e1
        exact AfterH.cons t u hta hr e1
      · rw [hta] at e1
        exact AfterH.skip t (by simp [hta]) e1
    · cases hta : t.ac
      · rw [hta] at e2
        exact AfterH.skip t (by simp [hta]) e2
      · rw [hta] at e2
        exact AfterH.cons t u hta hr e2

theorem parseDht_sound (d d' : Hdr) (s r : Bytes) (h : parseDht d s = .ok (d', r)) :
    ∃ (ts : List HTab) (dc ac : Nat → Option Huff), (∀ t ∈ ts, t.Ok) ∧ (ts.flatMap HTab.bytes).length + 2 < 65536 ∧
      s = body (ts.flatMap HTab.bytes) ++ r ∧ d' = { d with dc := dc, ac := ac } ∧
      AfterH false d.dc dc ts ∧ AfterH true d.ac ac ts := by
  unfold parseDht at h
  rw [bind_ok] at h; obtain ⟨⟨n, s1⟩, h1, h⟩ := h
  obtain ⟨hn, rfl⟩ := u16e_ok.1 h1
  replace h := ite_err.1 h; obtain ⟨h2, h⟩ := h
  obtain ⟨ts, dc, ac, a, rfl, c, e⟩ := dht_sound _ _ _ _ _ _ h
  refine ⟨ts, dc, ac, a, by omega, ?_, e⟩
  rw [body, c, List.append_assoc, show n - 2 + 2 = n by omega]

theorem parseDht_complete (d : Hdr) (r : Bytes) (ts : List HTab) (a : ∀ t ∈ ts, t.Ok)
    (b : (ts.flatMap HTab.bytes).length + 2 < 65536) : ∃ dc ac,
      parseDht d (body (ts.flatMap HTab.bytes) ++ r) = .ok ({ d with dc := dc, ac := ac }, r) ∧
      AfterH false d.dc dc ts ∧ AfterH true d.ac ac ts := by
  rw [parseDht, body_read b]
  simp only [Except.bind]
  rw [if_neg (by omega)]
  exact dht_complete ts a _ d r (by omega)

end Zune.Jpeg
