import Verif.Inflate.HcSpec
import Verif.Inflate.HuffSlow
import Mathlib.Tactic.Ring
import Mathlib.Tactic.NormNum

/-!
# zune-inflate: the hash chain match finder (lemmas)
-/

namespace Zune.Inflate.Hc

open Zune

/-! ### `count` -/

theorem leVal_cons (a : UInt8) (as : List UInt8) : leVal (a :: as) = a.toNat + 256 * leVal as := by
  have h : ∀ (l : List UInt8), beVal (l ++ [a]) = beVal l * 256 + a.toNat := by
    intro l
    induction l with
    | nil => simp [beVal]
    | cons b t ih =>
      rw [List.cons_append, beVal, beVal, ih, List.length_append, List.length_singleton, pow_succ]
      ring
  unfold leVal
  rw [List.reverse_cons, h]
  ring

theorem xor_byte (a b x y : Nat) (ha : a < 256) (hb : b < 256) :
    (a + 256 * x) ^^^ (b + 256 * y) = (a ^^^ b) + 256 * (x ^^^ y) := by
  have hx : a ^^^ b < 2 ^ 8 := Nat.xor_lt_two_pow ha hb
  rw [Nat.add_comm a, Nat.add_comm b, Nat.add_comm (a ^^^ b), show (256 : Nat) = 2 ^ 8 from rfl,
    Nat.two_pow_add_eq_or_of_lt ha, Nat.two_pow_add_eq_or_of_lt hb, Nat.two_pow_add_eq_or_of_lt hx]
  apply Nat.eq_of_testBit_eq
  intro i
  simp only [Nat.testBit_xor, Nat.testBit_or, Nat.testBit_two_pow_mul]
  by_cases h : 8 ≤ i
  · have e : ∀ z : Nat, z < 2 ^ 8 → z.testBit i = false := fun z hz =>
      Nat.testBit_lt_two_pow (lt_of_lt_of_le hz (Nat.pow_le_pow_right (by decide) h))
    simp [h, e a ha, e b hb]
  · simp [h]

theorem xor_zero {a b : Nat} : a ^^^ b = 0 ↔ a = b := by
  constructor
  · intro h
    apply Nat.eq_of_testBit_eq
    intro i
    have := congrArg (fun x => x.testBit i) h
    simpa using this
  · rintro rfl
    exact Nat.xor_self a

theorem trailing_lt : ∀ (k j x : Nat), j < k → x / 2 ^ j % 2 = 1 → trailing k x ≤ j := by
  intro k
  induction k with
  | zero => intro j x h; omega
  | succ k ih =>
    intro j x hj hx
    unfold trailing
    split
    · omega
    · rename_i h
      match j with
      | 0 => simp at hx; omega
      | j + 1 =>
        have := ih j (x / 2) (by omega) (by rw [Nat.div_div_eq_div_mul, ← pow_succ']; exact hx)
        omega

theorem trailing_even (k : Nat) (c x : Nat) : trailing (c + k) (2 ^ c * x) = c + trailing k x := by
  induction c with
  | zero => simp
  | succ c ih =>
    rw [show c + 1 + k = (c + k) + 1 by omega, trailing, if_neg (by rw [pow_succ', Nat.mul_assoc]; omega),
      show 2 ^ (c + 1) * x / 2 = 2 ^ c * x by rw [pow_succ', Nat.mul_assoc]; omega, ih]
    omega

theorem low_bit (c : Nat) (h0 : c ≠ 0) (hc : c < 256) : ∃ j, j < 8 ∧ c / 2 ^ j % 2 = 1 := by
  by_contra h
  have h' : ∀ j, j < 8 → c / 2 ^ j % 2 = 0 := fun j hj => by
    have : ¬ c / 2 ^ j % 2 = 1 := fun e => h ⟨j, hj, e⟩
    omega
  have a0 := h' 0 (by omega)
  have a1 := h' 1 (by omega)
  have a2 := h' 2 (by omega)
  have a3 := h' 3 (by omega)
  have a4 := h' 4 (by omega)
  have a5 := h' 5 (by omega)
  have a6 := h' 6 (by omega)
  have a7 := h' 7 (by omega)
  norm_num at a0 a1 a2 a3 a4 a5 a6 a7
  omega

/-- The trailing zeros of the exclusive or name the first byte that differs. -/
theorem first_diff : ∀ (k : Nat) (as bs : List UInt8), as.length = k → bs.length = k → leVal as ^^^ leVal bs ≠ 0 →
    ∃ n, n < k ∧ trailing (8 * k) (leVal as ^^^ leVal bs) / 2 ^ 3 = n ∧ as.take n = bs.take n ∧ as[n]? ≠ bs[n]? := by
  intro k
  induction k with
  | zero =>
    intro as bs ha hb h
    rw [List.length_eq_zero_iff.1 ha, List.length_eq_zero_iff.1 hb] at h
    exact absurd rfl h
  | succ k ih =>
    intro as bs ha hb h
    match as, bs with
    | a :: as, b :: bs =>
      rw [leVal_cons, leVal_cons, xor_byte _ _ _ _ a.toNat_lt b.toNat_lt] at h ⊢
      by_cases e : a = b
      · subst e
        rw [Nat.xor_self, Nat.zero_add] at h ⊢
        obtain ⟨n, hn, ht, h1, h2⟩ := ih as bs (by simpa using ha) (by simpa using hb) (by intro z; rw [z] at h; simp at h)
        refine ⟨n + 1, by omega, ?_, by simp [h1], by simpa using h2⟩
        rw [show 8 * (k + 1) = 8 + 8 * k by omega, show (256 : Nat) = 2 ^ 8 from rfl, trailing_even]
        omega
      · have hx : a.toNat ^^^ b.toNat ≠ 0 := fun z => e (UInt8.toNat_inj.1 (xor_zero.1 z))
        have hl : a.toNat ^^^ b.toNat < 256 := Nat.xor_lt_two_pow (n := 8) a.toNat_lt b.toNat_lt
        obtain ⟨j, hj, hb⟩ := low_bit _ hx hl
        refine ⟨0, by omega, ?_, rfl, by simpa using e⟩
        have := trailing_lt (8 * (k + 1)) j ((a.toNat ^^^ b.toNat) + 256 * (leVal as ^^^ leVal bs)) (by omega) (by
          have h8 : (256 : Nat) = 2 ^ j * 2 ^ (8 - j) := by
            rw [← pow_add, show j + (8 - j) = 8 by omega]
            norm_num
          rw [h8, Nat.mul_assoc, Nat.add_mul_div_left _ _ (by positivity), show 8 - j = (7 - j) + 1 by omega, pow_succ', Nat.mul_assoc]
          omega)
        omega

theorem leVal_inj : ∀ (as bs : List UInt8), as.length = bs.length → leVal as ^^^ leVal bs = 0 → as = bs := by
  intro as
  induction as with
  | nil => intro bs h _; exact (List.length_eq_zero_iff.1 h.symm).symm
  | cons a as ih =>
    intro bs hl h
    match bs with
    | b :: bs =>
      rw [leVal_cons, leVal_cons, xor_byte _ _ _ _ a.toNat_lt b.toNat_lt] at h
      have h1 : a.toNat ^^^ b.toNat = 0 := by omega
      have h2 : leVal as ^^^ leVal bs = 0 := by omega
      rw [UInt8.toNat_inj.1 (xor_zero.1 h1), ih bs (by simpa using hl) h2]

theorem countLoop_spec : ∀ (k : Nat) (w m : List UInt8),
    w.take (countLoop k w m) = m.take (countLoop k w m) ∧ countLoop k w m ≤ w.length ∧ countLoop k w m ≤ m.length ∧ countLoop k w m ≤ 8 * k ∧
      (countLoop k w m = 8 * k ∨ w.length < countLoop k w m + 8 ∨ m.length < countLoop k w m + 8 ∨
        w[countLoop k w m]? ≠ m[countLoop k w m]?) := by
  intro k
  induction k with
  | zero => intro w m; simp [countLoop]
  | succ k ih =>
    intro w m
    unfold countLoop
    by_cases h : 8 ≤ w.length ∧ 8 ≤ m.length
    · rw [if_pos h]
      dsimp only
      have lw : (w.take 8).length = 8 := by rw [List.length_take]; omega
      have lm : (m.take 8).length = 8 := by rw [List.length_take]; omega
      by_cases hd : leVal (w.take 8) ^^^ leVal (m.take 8) = 0
      · rw [if_pos hd]
        have e := leVal_inj _ _ (lw.trans lm.symm) hd
        obtain ⟨h1, h2, h3, h4, h5⟩ := ih (w.drop 8) (m.drop 8)
        generalize countLoop k (w.drop 8) (m.drop 8) = n at *
        rw [List.length_drop] at h2 h3 h5
        rw [List.length_drop] at h5
        refine ⟨?_, by omega, by omega, by omega, ?_⟩
        · rw [List.take_add, List.take_add, e, h1]
        · rcases h5 with h5 | h5 | h5 | h5
          · exact Or.inl (by omega)
          · exact Or.inr (Or.inl (by omega))
          · exact Or.inr (Or.inr (Or.inl (by omega)))
          · refine Or.inr (Or.inr (Or.inr ?_))
            rwa [List.getElem?_drop, List.getElem?_drop] at h5
      · rw [if_neg hd]
        obtain ⟨n, hn, ht, h1, h2⟩ := first_diff 8 _ _ lw lm hd
        rw [show (64 : Nat) = 8 * 8 from rfl, ht]
        rw [List.take_take, List.take_take, Nat.min_eq_left (by omega)] at h1
        refine ⟨h1, by omega, by omega, by omega, Or.inr (Or.inr (Or.inr ?_))⟩
        rwa [List.getElem?_take_of_lt hn, List.getElem?_take_of_lt hn] at h2
    · rw [if_neg h]
      refine ⟨by simp, by omega, by omega, by omega, ?_⟩
      by_cases hw : w.length < 8
      · exact Or.inr (Or.inl (by omega))
      · exact Or.inr (Or.inr (Or.inl (by omega)))

/-! ### The search -/

/-- What a match promises: the bytes it names are those at the current position, which is far enough and not past the end. -/
structure Real (p : Params) (bytes : List UInt8) (start lits : Nat) (s : Sequence) : Prop where
  same : (bytes.drop (start - s.ol)).take s.ml = (bytes.drop start).take s.ml
  far : 3 < s.ol
  back : s.ol ≤ start
  min : p.minLen ≤ s.ml
  pos : 0 < s.ml
  max : s.ml ≤ 248
  inside : start + s.ml ≤ bytes.length
  start : s.start + lits = start

theorem chain_real (p : Params) (next : Nat → Nat) (bytes : List UInt8) (start lits byte : Nat) (s0 : Sequence) :
    ∀ (fuel off first : Nat) (depth : Int) (found : Bool) (s : Sequence) (r : Bool × Sequence),
      (found = true → Real p bytes start lits s) → (found = false → s = s0) →
      chain p next bytes start lits byte fuel off first depth found s = some r →
      (r.1 = true → Real p bytes start lits r.2) ∧ (r.1 = false → r.2 = s0) := by
  intro fuel
  induction fuel with
  | zero => intro off first depth found s r _ _ h; simp [chain] at h
  | succ fuel ih =>
    intro off first depth found s r ht hf h
    unfold chain at h
    by_cases h0 : off = 0 ∨ depth ≤ 0
    · rw [if_pos h0] at h
      cases h
      exact ⟨ht, hf⟩
    rw [if_neg h0] at h
    match hk : skip next byte depth.toNat off first depth with
    | none => rw [hk] at h; simp at h
    | some none =>
      rw [hk] at h
      cases h
      exact ⟨ht, hf⟩
    | some (some (off', depth')) =>
      rw [hk] at h
      dsimp only at h
      match hm : maybeLonger bytes start off' found s with
      | none => rw [hm] at h; simp at h
      | some false => rw [hm] at h; exact ih _ _ _ _ _ _ ht hf h
      | some true =>
        rw [hm] at h
        dsimp only at h
        by_cases hb : bytes.length < off' ∨ start < off'
        · rw [if_pos hb] at h; simp at h
        rw [if_neg hb] at h
        obtain ⟨c1, c2, c3, c4, -⟩ := countLoop_spec (258 / 8 - 1) (bytes.drop off') (bytes.drop start)
        rw [show countLoop (258 / 8 - 1) (bytes.drop off') (bytes.drop start) = count (bytes.drop off') (bytes.drop start) 258 from rfl] at *
        generalize count (bytes.drop off') (bytes.drop start) 258 = n at *
        rw [List.length_drop] at c2 c3
        by_cases hn : p.minLen ≤ n ∧ s.ml < n ∧ 3 < start - off'
        · rw [if_pos hn] at h
          by_cases hl : start < lits
          · rw [if_pos hl] at h; simp at h
          rw [if_neg hl] at h
          have hr : Real p bytes start lits { s with ml := n, ol := start - off', start := start - lits } :=
            ⟨by show List.take n (List.drop (start - (start - off')) bytes) = _
                rw [show start - (start - off') = off' by omega, c1], hn.2.2, by show start - off' ≤ start; omega, hn.1,
              by show 0 < n; omega, by show n ≤ 248; omega, by show start + n ≤ bytes.length; omega,
              by show start - lits + lits = start; omega⟩
          by_cases hc : p.nice < n
          · rw [if_pos hc] at h
            cases h
            exact ⟨fun _ => hr, by simp⟩
          · rw [if_neg hc] at h
            exact ih _ _ _ _ _ _ (fun _ => hr) (by simp) h
        · rw [if_neg hn] at h
          exact ih _ _ _ _ _ _ ht hf h

theorem longest_real (p : Params) (t : Tables) (bytes : List UInt8) (start lits : Nat) (s : Sequence) (t' : Tables) (b : Bool) (s' : Sequence)
    (h : longest p t bytes start lits s = some (t', b, s')) :
    (b = true → Real p bytes start lits s') ∧ (b = false → s' = s) := by
  unfold longest at h
  match hb : bytes[start]?, hv : vHash (bytes.drop (start + 1)) p.minLen with
  | none, _ => rw [hb] at h; simp at h
  | some _, none => rw [hb, hv] at h; simp at h
  | some byte, some v =>
    rw [hb, hv] at h
    dsimp only at h
    split at h
    · simp only [Option.some.injEq, Prod.mk.injEq] at h
      exact ⟨fun e => by rw [← h.2.1] at e; simp at e, fun _ => h.2.2.symm⟩
    · rw [Option.map_eq_some_iff] at h
      obtain ⟨r, hr, e⟩ := h
      simp only [Prod.mk.injEq] at e
      have := chain_real p _ bytes start lits _ s _ _ _ _ _ _ r (by simp) (fun _ => rfl) hr
      rw [e.2] at this
      exact this

/-! ### Replaying the sequences -/

theorem replay_append (src : List UInt8) : ∀ (l m : List Sequence) (out : List UInt8),
    replay src out (l ++ m) = (replay src out l).bind fun o => replay src o m := by
  intro l
  induction l with
  | nil => intro m out; rfl
  | cons s l ih =>
    intro m out
    simp only [List.cons_append, replay]
    split
    · rw [ih]
    · rfl

theorem lz_take (src : List UInt8) (ws ol ml : Nat) (h1 : 1 ≤ ol) (h2 : ol ≤ ws) (h3 : ws + ml ≤ src.length)
    (h : (src.drop (ws - ol)).take ml = (src.drop ws).take ml) : Rfc1951.lz (src.take ws) ol ml = src.take (ws + ml) := by
  symm
  have lw : (src.take ws).length = ws := by rw [List.length_take]; omega
  apply lz_unique h1
  · omega
  · rw [List.length_take]; omega
  · intro i hi
    rw [lw] at hi
    rw [List.getElem?_take_of_lt (by omega), List.getElem?_take_of_lt hi]
  · intro i hi1 hi2
    rw [lw] at hi1 hi2
    rw [List.getElem?_take_of_lt (by omega), List.getElem?_take_of_lt (by omega)]
    have e := congrArg (fun l : List UInt8 => l[i - ws]?) h
    rw [List.getElem?_take_of_lt (by omega), List.getElem?_take_of_lt (by omega), List.getElem?_drop, List.getElem?_drop,
      show ws - ol + (i - ws) = i - ol by omega, show ws + (i - ws) = i by omega] at e
    exact e.symm

/-- What the loop has emitted stands for the bytes before the pending literals. -/
structure Emitted (p : Params) (src : List UInt8) (upto : Nat) (acc : List Sequence) : Prop where
  replay : replay src [] acc = some (src.take upto)
  sizes : ∀ s ∈ acc, p.minLen ≤ s.ml ∧ 0 < s.ml ∧ s.ml ≤ 248 ∧ 3 < s.ol ∧ s.ol < src.length
  total : (acc.map fun s => s.ll + s.ml).sum = upto

theorem emitted_add (p : Params) (src : List UInt8) (ws lits : Nat) (acc : List Sequence) (s : Sequence) (hl : lits ≤ ws)
    (he : Emitted p src (ws - lits) acc) (hr : Real p src ws lits s) : Emitted p src (ws + s.ml) (acc ++ [{ s with ll := lits }]) := by
  have hi := hr.inside
  have hp := hr.pos
  have hb := hr.back
  have hf := hr.far
  have hst := hr.start
  refine ⟨?_, ?_, ?_⟩
  · rw [replay_append, he.replay, Option.bind_some, replay]
    dsimp only
    have e : src.take (ws - lits) ++ (src.drop s.start).take lits = src.take ws := by
      rw [show s.start = ws - lits by omega, ← List.take_add, show ws - lits + lits = ws by omega]
    rw [e, if_pos ⟨by omega, by rw [List.length_take]; omega⟩, lz_take src ws s.ol s.ml (by omega) hb hi hr.same]
    rfl
  · intro x hx
    rw [List.mem_append, List.mem_singleton] at hx
    rcases hx with hx | rfl
    · exact he.sizes x hx
    · exact ⟨hr.min, hp, hr.max, hf, by show s.ol < src.length; omega⟩
  · rw [List.map_append, List.sum_append, he.total]
    show ws - lits + (lits + s.ml + 0) = _
    omega

theorem matchLoop_emitted (p : Params) (src : List UInt8) : ∀ (fuel : Nat) (t : Tables) (ws lits compressed : Nat) (s : Sequence)
    (acc seqs : List Sequence), lits ≤ ws → compressed = ws - lits → Emitted p src (ws - lits) acc →
    matchLoop p src fuel t ws lits compressed s acc = some seqs →
    ∃ ms upto, upto ≤ src.length ∧ seqs = ms ++ [⟨upto, src.length - upto, 3, 10⟩] ∧ Emitted p src upto ms := by
  intro fuel
  induction fuel with
  | zero => intro t ws lits c s acc seqs _ _ _ h; simp [matchLoop] at h
  | succ fuel ih =>
    intro t ws lits c s acc seqs hl hc he h
    unfold matchLoop at h
    by_cases hw : src.length < ws + 1 + 10
    · rw [if_pos hw] at h
      unfold finish at h
      dsimp only at h
      generalize ((src.length + (2 ^ 64 - ws)) % 2 ^ 64 + lits) % 2 ^ 64 = ll at h
      split_ifs at h with h1 h2 h3
      simp only [Option.some.injEq] at h
      exact ⟨acc, ws - lits, by omega, by rw [← h, show src.length - (ws - lits) = ll by omega, show src.length - ll = ws - lits by omega], he⟩
    · rw [if_neg hw] at h
      match hg : longest p t src ws lits s with
      | none => rw [hg] at h; simp at h
      | some (t', false, s') =>
        rw [hg] at h
        exact ih _ _ _ _ _ _ _ (by omega) (by omega) (by rw [show ws + 1 - (lits + 1) = ws - lits by omega]; exact he) h
      | some (t', true, s') =>
        rw [hg] at h
        dsimp only at h
        have hr := (longest_real p t src ws lits s t' true s' hg).1 rfl
        match ha : advance p.minLen src ws s'.ml t' with
        | none => rw [ha] at h; simp at h
        | some t'' =>
          rw [ha] at h
          exact ih _ _ _ _ _ _ _ (by omega) (by omega) (emitted_add p src ws lits acc s' hl he hr) h

/-! ### Totality -/

/-- An entry that names no position, or one before `b` whose link has been written. -/
def Fresh (w : Nat → Prop) (b e : Nat) : Prop := e % 2 ^ 24 = 0 ∨ (e % 2 ^ 24 < b ∧ w (e % 2 ^ 24 % maxBlock))

/-- All entries that can be reached from the heads are such. -/
def Inv (t : Tables) (b : Nat) : Prop :=
  ∃ w : Nat → Prop, (∀ h, Fresh w b (t.head h)) ∧ ∀ i, w i → Fresh w b (t.next i)

theorem Fresh.mono {w w' : Nat → Prop} {b b' e : Nat} (h : Fresh w b e) (hw : ∀ i, w i → w' i) (hb : b ≤ b') : Fresh w' b' e :=
  h.imp id fun ⟨h1, h2⟩ => ⟨by omega, hw _ h2⟩

theorem Inv.mono {t : Tables} {b b' : Nat} (h : Inv t b) (hb : b ≤ b') : Inv t b' := by
  obtain ⟨w, h1, h2⟩ := h
  exact ⟨w, fun i => (h1 i).mono (fun _ => id) hb, fun i hi => (h2 i hi).mono (fun _ => id) hb⟩

theorem entry_mod (byte : UInt8) (start : Nat) (h : start < 2 ^ 24) : entry byte start % 2 ^ 24 = start := by
  unfold entry
  rw [Nat.mod_eq_of_lt (lt_trans h (by decide)), Nat.mul_comm, ← Nat.two_pow_add_eq_or_of_lt h, Nat.mul_add_mod, Nat.mod_eq_of_lt h]

theorem inv_store {t : Tables} {b b' start : Nat} (v h : Nat) (byte : UInt8) (hi : Inv t b) (hb : b ≤ b') (hs : start < b') (hl : start < 2 ^ 24) :
    Inv ⟨v, store t.head h (entry byte start), store t.next (start % maxBlock) (t.head h)⟩ b' := by
  obtain ⟨w, h1, h2⟩ := hi
  have sub : ∀ i, w i → w i ∨ i = start % maxBlock := fun i hi => Or.inl hi
  refine ⟨fun i => w i ∨ i = start % maxBlock, fun i => ?_, fun i hi => ?_⟩
  · unfold store
    dsimp only
    split
    · right
      rw [entry_mod byte start hl]
      exact ⟨hs, Or.inr rfl⟩
    · exact (h1 i).mono sub hb
  · unfold store
    dsimp only
    split
    · exact (h1 h).mono sub hb
    · rename_i hne
      rcases hi with hi | hi
      · exact (h2 i hi).mono sub hb
      · exact absurd hi hne

theorem skip_total {w : Nat → Prop} {b : Nat} {next : Nat → Nat} (byte : Nat) (hn : ∀ i, w i → Fresh w b (next i)) :
    ∀ (fuel off first : Nat) (depth : Int), depth.toNat = fuel → 0 < depth → off < b → w (off % maxBlock) →
      ∃ r, skip next byte fuel off first depth = some r ∧ ∀ off' d', r = some (off', d') → off' < b ∧ w (off' % maxBlock) ∧ d' < depth := by
  intro fuel
  induction fuel with
  | zero => intro off first depth h1 h2; omega
  | succ fuel ih =>
    intro off first depth h1 h2 h3 h4
    unfold skip
    by_cases hf : first = byte
    · rw [if_pos hf]
      refine ⟨_, rfl, fun off' d' e => ?_⟩
      simp only [Option.some.injEq, Prod.mk.injEq] at e
      obtain ⟨rfl, rfl⟩ := e
      exact ⟨h3, h4, by omega⟩
    · rw [if_neg hf]
      dsimp only
      by_cases hz : depth - 1 ≤ 0 ∨ next (off % maxBlock) % 2 ^ 24 = 0
      · rw [if_pos hz]
        exact ⟨_, rfl, by simp⟩
      · rw [if_neg hz]
        have hfr := (hn _ h4).resolve_left (fun e => hz (Or.inr e))
        obtain ⟨r, hr, h⟩ := ih (next (off % maxBlock) % 2 ^ 24) (next (off % maxBlock) / 2 ^ 24) (depth - 1) (by omega) (by omega) hfr.1 hfr.2
        refine ⟨r, hr, fun off' d' e => ?_⟩
        obtain ⟨a, b, c⟩ := h off' d' e
        exact ⟨a, b, by omega⟩

theorem chain_total (p : Params) (hp : p.nice < p.minLen) {w : Nat → Prop} {next : Nat → Nat} (bytes : List UInt8) (start lits byte : Nat)
    (hs : start ≤ bytes.length) (hl : lits ≤ start) (hn : ∀ i, w i → Fresh w start (next i)) :
    ∀ (fuel off first : Nat) (depth : Int) (s : Sequence), depth.toNat < fuel → (off = 0 ∨ (off < start ∧ w (off % maxBlock))) →
      ∃ r, chain p next bytes start lits byte fuel off first depth false s = some r := by
  intro fuel
  induction fuel with
  | zero => intro off first depth s h; omega
  | succ fuel ih =>
    intro off first depth s hd ho
    unfold chain
    by_cases h0 : off = 0 ∨ depth ≤ 0
    · rw [if_pos h0]
      exact ⟨_, rfl⟩
    rw [if_neg h0]
    have ho := ho.resolve_left fun e => h0 (Or.inl e)
    obtain ⟨r, hr, h⟩ := skip_total byte hn depth.toNat off first depth rfl (by omega) ho.1 ho.2
    rw [hr]
    match r with
    | none => exact ⟨_, rfl⟩
    | some (off', depth') =>
      obtain ⟨a1, a2, a3⟩ := h off' depth' rfl
      dsimp only
      rw [show maybeLonger bytes start off' false s = some true from rfl]
      dsimp only
      rw [if_neg (by omega)]
      have again : ∀ s, ∃ r, chain p next bytes start lits byte fuel (next (off' % maxBlock) % 2 ^ 24) (next (off' % maxBlock) / 2 ^ 24)
          (depth' - 1) false s = some r := fun s => ih _ _ _ s (by omega) (hn _ a2)
      split
      · rw [if_neg (by omega), if_pos (by omega)]
        exact ⟨_, rfl⟩
      · exact again s

theorem vHash_total (bytes : List UInt8) (minLen : Nat) (h : 8 ≤ bytes.length) (hm : 4 ≤ minLen ∧ minLen ≤ 6) : ∃ v, vHash bytes minLen = some v := by
  unfold vHash
  obtain e | e | e : minLen = 4 ∨ minLen = 5 ∨ minLen = 6 := by omega
  · rw [if_pos e, if_pos (by omega)]
    exact ⟨_, rfl⟩
  · rw [if_neg (by omega), if_pos e, if_pos h]
    exact ⟨_, rfl⟩
  · rw [if_neg (by omega), if_neg (by omega), if_pos e, if_pos h]
    exact ⟨_, rfl⟩

theorem longest_total (p : Params) (hp : p.nice < p.minLen) (hm : 4 ≤ p.minLen ∧ p.minLen ≤ 6) (t : Tables) (bytes : List UInt8)
    (start lits : Nat) (s : Sequence) (hs : start + 9 ≤ bytes.length) (hl : lits ≤ start) (hb : bytes.length < 2 ^ 24) (hi : Inv t start) :
    ∃ t' b s', longest p t bytes start lits s = some (t', b, s') ∧ Inv t' (start + 1) := by
  obtain ⟨v, hv⟩ := vHash_total (bytes.drop (start + 1)) p.minLen (by rw [List.length_drop]; omega) hm
  have hI := fun byte => inv_store v (t.hash % hashSize) byte hi (Nat.le_succ start) (Nat.lt_succ_self start) (by omega)
  unfold longest
  rw [List.getElem?_eq_getElem (show start < bytes.length by omega), hv]
  dsimp only
  split
  · exact ⟨_, _, _, rfl, hI _⟩
  · obtain ⟨w, h1, h2⟩ := hi
    have sub : ∀ i, w i → w i ∨ i = start % maxBlock := fun i hi => Or.inl hi
    obtain ⟨r, hr⟩ := chain_total p hp (w := fun i => w i ∨ i = start % maxBlock)
      (next := store t.next (start % maxBlock) (t.head (t.hash % hashSize))) bytes start lits bytes[start].toNat (by omega) hl
      (fun i hi => by
        unfold store
        split
        · exact (h1 _).mono sub le_rfl
        · rename_i hne
          exact (h2 i (hi.resolve_right hne)).mono sub le_rfl)
      (p.depth.toNat + 1) (t.head (t.hash % hashSize) % 2 ^ 24) (t.head (t.hash % hashSize) / 2 ^ 24) p.depth s (by omega)
      ((h1 _).mono sub le_rfl)
    rw [hr]
    exact ⟨_, _, _, rfl, hI _⟩

theorem advanceLoop_total (minLen : Nat) (hm : 4 ≤ minLen ∧ minLen ≤ 6) (bytes : List UInt8) (hb : bytes.length < 2 ^ 24) :
    ∀ (n start b : Nat) (t : Tables), start + n + 8 ≤ bytes.length → Inv t b → b ≤ start + n → start + 1 ≤ b →
      ∃ t', advanceLoop minLen bytes n start t = some t' ∧ Inv t' (start + n) := by
  intro n
  induction n with
  | zero => intro start b t _ hi hbs _; exact ⟨t, rfl, hi.mono (by omega)⟩
  | succ n ih =>
    intro start b t hl hi hbs hsb
    obtain ⟨v, hv⟩ := vHash_total (bytes.drop (start + 1)) minLen (by rw [List.length_drop]; omega) hm
    unfold advanceLoop
    rw [List.getElem?_eq_getElem (show start < bytes.length by omega), hv]
    dsimp only
    by_cases hn : n = 0
    · subst hn
      exact ⟨_, rfl, inv_store v _ _ hi (by omega) (by omega) (by omega)⟩
    · obtain ⟨t', h1, h2⟩ := ih (start + 1) (max b (start + 2)) _ (by omega)
        (inv_store (start := start) v (t.hash % hashSize) bytes[start] hi (le_max_left b (start + 2)) (by omega) (by omega)) (by omega) (by omega)
      exact ⟨t', h1, h2.mono (by omega)⟩

theorem matchLoop_total (p : Params) (hp : p.nice < p.minLen) (hm : 4 ≤ p.minLen ∧ p.minLen ≤ 6) (src : List UInt8) (hb : src.length < 2 ^ 24) :
    ∀ (fuel : Nat) (t : Tables) (ws lits : Nat) (s : Sequence) (acc : List Sequence), src.length < ws + fuel → ws ≤ src.length → lits ≤ ws →
      s.ml = 0 → Inv t ws → ∃ seqs, matchLoop p src fuel t ws lits (ws - lits) s acc = some seqs := by
  intro fuel
  induction fuel with
  | zero => intro t ws lits s acc h1 h2; omega
  | succ fuel ih =>
    intro t ws lits s acc h1 h2 h3 h4 hi
    unfold matchLoop
    by_cases hw : src.length < ws + 1 + 10
    · rw [if_pos hw]
      unfold finish
      rw [if_pos h4]
      have e : ((src.length + (2 ^ 64 - ws)) % 2 ^ 64 + lits) % 2 ^ 64 = src.length - (ws - lits) := by omega
      dsimp only
      rw [e, if_neg (by omega), if_pos (by omega)]
      exact ⟨_, rfl⟩
    · rw [if_neg hw]
      obtain ⟨t', b, s', hg, hI⟩ := longest_total p hp hm t src ws lits s (by omega) h3 hb hi
      have hr := longest_real p t src ws lits s t' b s' hg
      rw [hg]
      match b with
      | false =>
        dsimp only
        have := ih t' (ws + 1) (lits + 1) s' acc (by omega) (by omega) (by omega) (by rw [hr.2 rfl]; exact h4) hI
        rwa [show ws + 1 - (lits + 1) = ws - lits by omega] at this
      | true =>
        dsimp only
        have hr := hr.1 rfl
        have hpos := hr.pos
        have hin := hr.inside
        have ha : ∃ t'', advance p.minLen src ws s'.ml t' = some t'' ∧ Inv t'' (ws + s'.ml) := by
          unfold advance
          by_cases h : ws + s'.ml + 100 < src.length
          · rw [if_pos h, if_neg (by omega)]
            exact advanceLoop_total p.minLen hm src hb s'.ml ws (ws + 1) t' (by omega) hI (by omega) (by omega)
          · rw [if_neg h]
            exact ⟨t', rfl, hI.mono (by omega)⟩
        obtain ⟨t'', ha, hI'⟩ := ha
        rw [ha]
        dsimp only
        have := ih t'' (ws + s'.ml) 0 { s' with ll := lits, ml := 0 } (acc ++ [{ s' with ll := lits }]) (by omega) hin (by omega) rfl hI'
        rwa [show ws + s'.ml - 0 = ws - lits + (lits + s'.ml) by omega] at this

/-! ### Storing the sequences -/

theorem addAll_get : ∀ (l : List Nat) (pos : Nat) (a : Nat → Nat), pos + l.length ≤ 10922 → (∀ v ∈ l, v < 2 ^ 32) →
    (∀ i < pos, addAll pos l a i = a i) ∧ ∀ i v, l[i]? = some v → addAll pos l a (pos + i) = v := by
  intro l
  induction l with
  | nil => intro pos a _ _; exact ⟨fun _ _ => rfl, by simp⟩
  | cons x l ih =>
    intro pos a h hv
    rw [List.length_cons] at h
    obtain ⟨h1, h2⟩ := ih (pos + 1) (addSeq a pos x) (by omega) (fun v hm => hv v (List.mem_cons_of_mem _ hm))
    have hp : pos % (maxBlock / 3) = pos := Nat.mod_eq_of_lt (by show pos < 10922; omega)
    refine ⟨fun i hi => ?_, fun i v hi => ?_⟩
    · rw [addAll, h1 i (by omega), addSeq, store, hp, if_neg (by omega)]
    · rw [addAll]
      match i with
      | 0 =>
        show addAll (pos + 1) l (addSeq a pos x) pos = v
        rw [h1 pos (by omega), addSeq, store, hp, if_pos rfl]
        simp only [List.getElem?_cons_zero, Option.some.injEq] at hi
        rw [← hi]
        exact Nat.mod_eq_of_lt (hv x List.mem_cons_self)
      | i + 1 =>
        rw [show pos + (i + 1) = pos + 1 + i by omega]
        exact h2 i v (by simpa using hi)

theorem sum_ge (ms : List Sequence) (k : Nat) (h : ∀ s ∈ ms, k ≤ s.ml) : k * ms.length ≤ (ms.map fun s => s.ll + s.ml).sum := by
  induction ms with
  | nil => simp
  | cons s ms ih =>
    have h1 := ih fun s hs => h s (List.mem_cons_of_mem _ hs)
    have h2 := h s List.mem_cons_self
    rw [List.map_cons, List.sum_cons, List.length_cons, Nat.mul_add]
    omega

theorem ll_le (ms : List Sequence) : ∀ s ∈ ms, s.ll + s.ml ≤ (ms.map fun s => s.ll + s.ml).sum := by
  induction ms with
  | nil => simp
  | cons x ms ih =>
    intro s hs
    rw [List.map_cons, List.sum_cons]
    rcases List.mem_cons.1 hs with rfl | hs
    · omega
    · have := ih s hs
      omega

end Zune.Inflate.Hc
