/- C28, C62: the channel buffer. -/
import Verif.Image.ChannelModel
import Mathlib.Tactic.IntervalCases

namespace Zune.Chan

/-- The state between operations: the block has the size the channel believes, and the length fits. -/
def Channel.Ok (c : Channel) : Prop := c.mem.length = c.capacity ∧ c.length ≤ c.capacity

theorem write_spec {c : Channel} (h : c.Ok) {b : List UInt8} (hb : c.length + b.length ≤ c.capacity) :
    ∃ d, c.write b = .ok d ∧ d.Ok ∧ d.view = c.view ++ b ∧ d.capacity = c.capacity ∧ d.ty = c.ty ∧ d.layout = c.layout ∧
      d.length = c.length + b.length := by
  obtain ⟨h1, h2⟩ := h
  refine ⟨{ c with mem := c.mem.take c.length ++ b ++ c.mem.drop (c.length + b.length), length := c.length + b.length },
    by rw [Channel.write, if_pos (by omega)], ⟨?_, hb⟩, ?_, rfl, rfl, rfl, rfl⟩
  · simp only [List.length_append, List.length_take, List.length_drop]; omega
  · simp only [Channel.view]
    rw [List.take_append_of_le_length (by simp; omega), List.take_of_length_le (by simp)]

theorem realloc_spec {c : Channel} (h : c.Ok) (env : Env) {n : Nat} (hn : c.capacity ≤ n) (h0 : 0 < n)
    (hl : env.strict = true → c.layout = c.capacity) :
    ∃ d, c.realloc env n = .ok d ∧ d.Ok ∧ d.view = c.view ∧ d.capacity = n ∧ d.ty = c.ty ∧ d.layout = c.layout ∧
      d.length = c.length := by
  obtain ⟨h1, h2⟩ := h
  have e : (env.strict && c.layout != c.mem.length) = false := by
    cases hs : env.strict
    · rfl
    · simp [hl hs, h1]
  refine ⟨{ c with mem := c.mem.take n ++ (List.range (n - c.mem.length)).map env.fresh, capacity := n },
    by rw [Channel.realloc, if_neg (by omega), e, if_neg (by simp)], ⟨?_, by simp only; omega⟩, ?_, rfl, rfl, rfl, rfl⟩
  · simp; omega
  · simp only [Channel.view]
    rw [List.take_append_of_le_length (by simp; omega), List.take_take, Nat.min_eq_left (by omega)]

/-- The growth rule of `push` makes room for the element, but for capacities 0 and 1. -/
theorem grow_push {cap s : Nat} (h : 2 ≤ cap ∨ 1 ≤ cap ∧ 2 ≤ s) (hs : 0 < s) : cap + s ≤ cap * (s * 3) / 2 := by
  rw [Nat.le_div_iff_mul_le (by omega)]
  rcases h with h | ⟨h1, h2⟩
  · obtain ⟨a, rfl⟩ := Nat.exists_eq_add_of_le h
    obtain ⟨b, rfl⟩ := Nat.exists_eq_add_of_le (show 1 ≤ s from hs)
    nlinarith [Nat.zero_le (a * b)]
  · obtain ⟨a, rfl⟩ := Nat.exists_eq_add_of_le h1
    obtain ⟨b, rfl⟩ := Nat.exists_eq_add_of_le h2
    nlinarith [Nat.zero_le (a * b)]

/-- The capacity after an operation, from the growth rules. -/
theorem step_spec {c : Channel} (h : c.Ok) (env : Env) (op : Op) (hc : 2 ≤ c.capacity)
    (ht : ∀ t b, op = .extend t b → t = c.ty)
    (hl : env.strict = true → c.length + op.bytes.length ≤ c.capacity ∨ c.layout = c.capacity) :
    ∃ d, c.step env op = .ok d ∧ d.Ok ∧ d.view = c.view ++ op.bytes ∧ c.capacity ≤ d.capacity ∧ d.ty = c.ty ∧
      d.layout = c.layout ∧ d.length = c.length + op.bytes.length ∧
      (c.length + op.bytes.length ≤ c.capacity → d.capacity = c.capacity) ∧
      (¬ c.length + op.bytes.length ≤ c.capacity → c.capacity < d.capacity) := by
  by_cases hr : c.length + op.bytes.length ≤ c.capacity
  · obtain ⟨d, e1, e2, e3, e4, e5, e6, e7⟩ := write_spec h hr
    refine ⟨d, ?_, e2, e3, e4.ge, e5, e6, e7, fun _ => e4, fun n => absurd hr n⟩
    cases op with
    | push e => rw [Channel.step, Channel.push, if_pos (by simpa [Channel.hasCapacity, Op.bytes] using hr)]; exact e1
    | extend t b =>
      rw [Channel.step, Channel.extend, if_neg (by simp [ht t b rfl]), Channel.extendUnchecked,
        if_pos (by simpa [Channel.hasCapacity, Op.bytes] using hr)]
      exact e1
  · have hl' : env.strict = true → c.layout = c.capacity := fun hs => (hl hs).resolve_left hr
    have key : ∀ n, c.capacity + op.bytes.length ≤ n → ∃ d, ((c.realloc env n).bind fun c => c.write op.bytes) = .ok d ∧
        d.Ok ∧ d.view = c.view ++ op.bytes ∧ d.capacity = n ∧ d.ty = c.ty ∧ d.layout = c.layout ∧
        d.length = c.length + op.bytes.length := by
      intro n hn
      obtain ⟨d, e1, e2, e3, e4, e5, e6, e7⟩ := realloc_spec h env (n := n) (by omega) (by omega) hl'
      obtain ⟨d', f1, f2, f3, f4, f5, f6, f7⟩ := write_spec e2 (b := op.bytes) (by have := h.2; omega)
      exact ⟨d', by rw [e1]; exact f1, f2, by rw [f3, e3], by omega, by rw [f5, e5], by rw [f6, e6], by omega⟩
    have hp : 0 < op.bytes.length := by have := h.2; omega
    cases op with
    | push e =>
      obtain ⟨d, k1, k2, k3, k4, k5, k6, k7⟩ := key _ (grow_push (Or.inl hc) hp)
      have := grow_push (Or.inl hc) hp
      refine ⟨d, ?_, k2, k3, by simp only [Op.bytes] at *; omega, k5, k6, k7, fun n => absurd n hr,
        fun _ => by simp only [Op.bytes] at *; omega⟩
      rw [Channel.step, Channel.push, if_neg (by simpa [Channel.hasCapacity, Op.bytes] using hr)]; exact k1
    | extend t b =>
      obtain ⟨d, k1, k2, k3, k4, k5, k6, k7⟩ := key _ (show c.capacity + b.length ≤ c.capacity + b.length + 10 by omega)
      refine ⟨d, ?_, k2, k3, by omega, k5, k6, k7, fun n => absurd n hr, fun _ => by omega⟩
      rw [Channel.step, Channel.extend, if_neg (by simp [ht t b rfl]), Channel.extendUnchecked,
        if_neg (by simpa [Channel.hasCapacity, Op.bytes] using hr)]
      exact k1

theorem run_spec (env : Env) (ops : List Op) : ∀ {c : Channel}, c.Ok → 2 ≤ c.capacity →
    (∀ op ∈ ops, ∀ t b, op = .extend t b → t = c.ty) →
    (env.strict = true → c.length + (ops.flatMap Op.bytes).length ≤ c.capacity) →
    ∃ d, c.run env ops = .ok d ∧ d.Ok ∧ d.view = c.view ++ ops.flatMap Op.bytes ∧ c.capacity ≤ d.capacity ∧ d.ty = c.ty ∧
      d.layout = c.layout ∧ d.length = c.length + (ops.flatMap Op.bytes).length ∧
      (c.length + (ops.flatMap Op.bytes).length ≤ c.capacity → d.capacity = c.capacity) := by
  induction ops with
  | nil => intro c h _ _ _; exact ⟨c, rfl, h, by simp, le_refl _, rfl, rfl, by simp, fun _ => rfl⟩
  | cons op ops ih =>
    intro c h hc ht hs
    simp only [List.flatMap_cons, List.length_append] at hs ⊢
    obtain ⟨d, e1, e2, e3, e4, e5, e6, e7, e8, e9⟩ :=
      step_spec h env op hc (ht op (by simp)) (fun s => Or.inl (by have := hs s; omega))
    obtain ⟨f, g1, g2, g3, g4, g5, g6, g7, g8⟩ := ih e2 (by omega) (fun o ho => by rw [e5]; exact ht o (by simp [ho]))
      (fun s => by have := hs s; have := e8 (by omega); omega)
    refine ⟨f, by rw [Channel.run, e1]; exact g1, g2, by rw [g3, e3, List.append_assoc], by omega, by rw [g5, e5],
      by rw [g6, e6], by omega, fun hle => ?_⟩
    have := e8 (by omega)
    rw [g8 (by omega), this]

theorem new_spec {cap : Nat} {ty : Ty} (h : 0 < cap) : ∃ c, new cap ty = .ok c ∧ c.Ok ∧ c.view = [] ∧ c.length = 0 ∧
    c.capacity = cap ∧ c.ty = ty ∧ c.layout = cap := by
  refine ⟨_, by rw [new, if_neg (by omega)], ⟨by simp, by simp⟩, by simp [Channel.view], rfl, rfl, rfl, rfl⟩

/-- **C28** (storage).  Starting from a capacity of at least two bytes, any sequence of `push` and (well typed) `extend` calls
    succeeds, whatever `realloc` finds in the new memory; then the stored bytes are exactly the added bytes in order, and the
    length is within the capacity, which is the size of the block.

    Partial: under an allocator that does not insist on being handed the layout of the block (see `c28_stale_layout`), and for
    capacities of at least two (see `c28_push_exact`). -/
theorem c28_storage_partial (env : Env) (hs : env.strict = false) (cap : Nat) (hc : 2 ≤ cap) (ty : Ty) (ops : List Op)
    (ht : ∀ op ∈ ops, ∀ t b, op = .extend t b → t = ty) :
    ∃ c, ((new cap ty).bind fun c => c.run env ops) = .ok c ∧ c.view = ops.flatMap Op.bytes ∧
      c.length = (ops.flatMap Op.bytes).length ∧ c.length ≤ c.capacity ∧ c.mem.length = c.capacity := by
  obtain ⟨c, e1, e2, e3, e4, e5, e6, e7⟩ := new_spec (ty := ty) (show 0 < cap by omega)
  obtain ⟨d, f1, f2, f3, f4, f5, f6, f7, f8⟩ := run_spec env ops e2 (by omega) (by rw [e6]; exact ht) (by simp [hs])
  exact ⟨d, by rw [e1]; exact f1, by rw [f3, e3]; rfl, by omega, f2.2, f2.1⟩

example : (((new 10 .u16).bind fun c => c.run ⟨fun _ => 7, false⟩
      (List.replicate 9 (.push [1, 2]) ++ [.extend .u16 (List.replicate 40 3)])).map fun c => (c.view, c.capacity)) =
      .ok ((List.replicate 9 [1, 2]).flatten ++ List.replicate 40 3, 80) := by
  decide +kernel

/-- **C28** (no growth).  As long as everything fits in the first block the strictest allocator has nothing to object, and the
    block is never moved. -/
theorem c28_fits (env : Env) (cap : Nat) (hc : 2 ≤ cap) (ty : Ty) (ops : List Op)
    (ht : ∀ op ∈ ops, ∀ t b, op = .extend t b → t = ty) (hf : (ops.flatMap Op.bytes).length ≤ cap) :
    ∃ c, ((new cap ty).bind fun c => c.run env ops) = .ok c ∧ c.view = ops.flatMap Op.bytes ∧ c.capacity = cap ∧
      c.mem.length = cap := by
  obtain ⟨c, e1, e2, e3, e4, e5, e6, e7⟩ := new_spec (ty := ty) (show 0 < cap by omega)
  obtain ⟨d, f1, f2, f3, f4, f5, f6, f7, f8⟩ := run_spec env ops e2 (by omega) (by rw [e6]; exact ht)
    (fun _ => by omega)
  have := f8 (by omega)
  exact ⟨d, by rw [e1]; exact f1, by rw [f3, e3]; rfl, by omega, by rw [f2.1]; omega⟩

example : (((new 4 .u8).bind fun c => c.run ⟨fun _ => 7, true⟩ [.push [1], .extend .u8 [2, 3, 4]]).map Channel.view) =
    .ok [1, 2, 3, 4] := by decide +kernel

/-- **C28** (disagreement, general).  `realloc` never updates the stored layout.  So once a channel has grown, every later
    operation that has to grow it again hands the allocator the layout of a block that no longer exists, which is undefined
    behaviour: whatever the operations before, whatever the operation. -/
theorem c28_stale_layout (env : Env) (hs : env.strict = true) (cap : Nat) (hc : 2 ≤ cap) (ty : Ty) (ops : List Op) (c : Channel)
    (hr : ((new cap ty).bind fun c => c.run env ops) = .ok c) (hg : c.capacity ≠ cap) (op : Op)
    (hop : ∀ t b, op = .extend t b → t = ty) (hfull : c.capacity < c.length + op.bytes.length) :
    ((new cap ty).bind fun c => c.run env (ops ++ [op])) = .error .badLayout := by
  -- the invariant: the layout is the first capacity, the block is as large as the capacity
  have inv : ∀ (ops : List Op) (c d : Channel), c.Ok → 2 ≤ c.capacity → c.run env ops = .ok d →
      d.Ok ∧ 2 ≤ d.capacity ∧ d.layout = c.layout ∧ d.ty = c.ty := by
    intro ops
    induction ops with
    | nil => intro c d h1 h2 h3; cases h3; exact ⟨h1, h2, rfl, rfl⟩
    | cons o os ih =>
      intro c d h1 h2 h3
      rw [Channel.run] at h3
      cases hst : c.step env o with
      | error e => rw [hst] at h3; cases h3
      | ok c' =>
        rw [hst] at h3
        have h3' : c'.run env os = .ok d := h3
        have key : c'.Ok ∧ 2 ≤ c'.capacity ∧ c'.layout = c.layout ∧ c'.ty = c.ty := by
          by_cases hty : ∀ t b, o = .extend t b → t = c.ty
          · by_cases hl : c.length + o.bytes.length ≤ c.capacity ∨ c.layout = c.capacity
            · obtain ⟨d', e1, e2, e3, e4, e5, e6, e7, _⟩ := step_spec h1 env o h2 hty (fun _ => hl)
              rw [hst] at e1; cases e1
              exact ⟨e2, by omega, e6, e5⟩
            · exfalso
              have hl1 : ¬ c.length + o.bytes.length ≤ c.capacity := fun x => hl (Or.inl x)
              have hl2 : c.layout ≠ c.mem.length := by rw [h1.1]; exact fun x => hl (Or.inr x)
              cases o with
              | push e =>
                rw [Channel.step, Channel.push, if_neg (by simpa [Channel.hasCapacity, Op.bytes] using hl1), Channel.realloc] at hst
                have hne : c.capacity * (e.length * 3) / 2 ≠ 0 := by
                  have := grow_push (Or.inl h2) (show 0 < e.length by simp only [Op.bytes] at hl1; have := h1.2; omega)
                  omega
                rw [if_neg hne, if_pos (by simp [hs, hl2])] at hst
                cases hst
              | extend t b =>
                rw [Channel.step, Channel.extend, if_neg (by simp [hty t b rfl]), Channel.extendUnchecked,
                  if_neg (by simpa [Channel.hasCapacity, Op.bytes] using hl1), Channel.realloc, if_neg (by omega),
                  if_pos (by simp [hs, hl2])] at hst
                cases hst
          · exfalso
            cases o with
            | push e => exact hty (fun t b h => by cases h)
            | extend t b =>
              have : t ≠ c.ty := fun ht => hty (fun t' b' h => by cases h; exact ht)
              rw [Channel.step, Channel.extend, if_pos this] at hst
              cases hst
        obtain ⟨k1, k2, k3, k4⟩ := key
        obtain ⟨r1, r2, r3, r4⟩ := ih c' d k1 k2 h3'
        exact ⟨r1, r2, by rw [r3, k3], by rw [r4, k4]⟩
  obtain ⟨c0, e1, e2, e3, e4, e5, e6, e7⟩ := new_spec (ty := ty) (show 0 < cap by omega)
  rw [e1] at hr ⊢
  have hr' : c0.run env ops = .ok c := hr
  show c0.run env (ops ++ [op]) = _
  obtain ⟨i1, i2, i3, i4⟩ := inv ops c0 c e2 (by omega) hr'
  have app : ∀ (ops : List Op) (a : Channel), a.run env (ops ++ [op]) = (a.run env ops).bind fun c => c.step env op := by
    intro ops
    induction ops with
    | nil =>
      intro a
      show (a.step env op).bind _ = a.step env op
      cases a.step env op <;> rfl
    | cons o os ih =>
      intro a
      simp only [List.cons_append, Channel.run]
      cases a.step env o with
      | error e => rfl
      | ok b => exact ih b
  rw [app, hr']
  show c.step env op = _
  have hlay : c.layout ≠ c.mem.length := by rw [i1.1, i3, e7]; exact fun x => hg x.symm
  cases op with
  | push e =>
    simp only [Op.bytes] at hfull
    have hne : c.capacity * (e.length * 3) / 2 ≠ 0 := by
      have := grow_push (Or.inl i2) (show 0 < e.length by have := i1.2; omega)
      omega
    rw [Channel.step, Channel.push, if_neg (by simp [Channel.hasCapacity]; omega), Channel.realloc, if_neg hne,
      if_pos (by simp [hs, hlay])]
    rfl
  | extend t b =>
    simp only [Op.bytes] at hfull
    rw [Channel.step, Channel.extend, if_neg (by rw [i4, e6]; simp [hop t b rfl]), Channel.extendUnchecked,
      if_neg (by simp [Channel.hasCapacity]; omega), Channel.realloc, if_neg (by omega), if_pos (by simp [hs, hlay])]
    rfl

/-- The hypotheses are met by pushing 16 bytes to `Channel::new::<u8>()`: it grows at the 11th and fails at the 16th. -/
example : (((new 10 .u8).bind fun c => c.run ⟨fun _ => 0, true⟩ (List.replicate 15 (.push [9]))).map
      fun c => (c.capacity, c.length)) = .ok (15, 15) ∧
    ((new 10 .u8).bind fun c => c.run ⟨fun _ => 0, true⟩ (List.replicate 15 (.push [9]) ++ [.push [9]])) =
      .error .badLayout := by
  decide +kernel

/-- **C28** (exact growth condition).  `push` of a non-empty element goes wrong in exactly two situations, both at full
    capacity: a block of size zero, or a block of one byte which a one-byte push "grows" to `1 * 3 / 2 = 1`, so that the
    element is written behind the block. -/
theorem c28_push_exact (env : Env) (hs : env.strict = false) (c : Channel) (h : c.Ok) (e : List UInt8) (he : e ≠ []) :
    (∃ f, c.push env e = .error f) ↔
      c.capacity < c.length + e.length ∧ (c.capacity = 0 ∨ c.capacity = 1 ∧ e.length = 1) := by
  have hp : 0 < e.length := by cases e <;> simp_all
  constructor
  · rintro ⟨f, hf⟩
    by_contra hn
    have : ∃ d, c.push env e = .ok d := by
      by_cases hr : c.length + e.length ≤ c.capacity
      · obtain ⟨d, e1, _⟩ := write_spec h hr
        exact ⟨d, by rw [Channel.push, if_pos (by simpa [Channel.hasCapacity, Op.bytes] using hr)]; exact e1⟩
      · have hcap : 2 ≤ c.capacity ∨ 1 ≤ c.capacity ∧ 2 ≤ e.length := by omega
        have hg := grow_push hcap hp
        obtain ⟨d, e1, e2, e3, e4, e5, e6, e7⟩ := realloc_spec h env (n := c.capacity * (e.length * 3) / 2)
          (by omega) (by omega) (by simp [hs])
        obtain ⟨d', f1, _⟩ := write_spec e2 (b := e) (by have := h.2; omega)
        exact ⟨d', by rw [Channel.push, if_neg (by simpa [Channel.hasCapacity, Op.bytes] using hr), e1]; exact f1⟩
    obtain ⟨d, hd⟩ := this
    rw [hd] at hf; cases hf
  · rintro ⟨h1, h2⟩
    have hr : ¬ c.hasCapacity e.length = true := by simp [Channel.hasCapacity]; omega
    rw [Channel.push, if_neg hr]
    rcases h2 with h0 | ⟨h0, h3⟩
    · exact ⟨.zeroSize, by rw [Channel.realloc, h0, if_pos (by simp)]; rfl⟩
    · obtain ⟨d, e1, e2, e3, e4, e5, e6, e7⟩ := realloc_spec h env (n := c.capacity * (e.length * 3) / 2)
        (by rw [h0, h3]) (by rw [h0, h3]; decide) (by simp [hs])
      refine ⟨.outOfBounds, ?_⟩
      rw [e1]
      show d.write e = _
      have : d.capacity = 1 := by rw [e4, h0, h3]
      rw [Channel.write, if_neg (by rw [e2.1]; omega)]

example : ((new 1 .u8).bind fun c => c.run ⟨fun _ => 0, false⟩ [.push [1], .push [2]]) = .error .outOfBounds ∧
    (((new 1 .u16).bind fun c => c.run ⟨fun _ => 0, false⟩ [.push [1, 2], .push [3, 4]]).map Channel.view) =
      .ok [1, 2, 3, 4] := by
  decide +kernel

/-! ### C62: typed views, clones and comparison -/

theorem elements_flatten {n : Nat} (hn : 0 < n) : ∀ (es : List (List UInt8)), (∀ e ∈ es, e.length = n) →
    elements n es.flatten = es
  | [], _ => by simp [elements]
  | e :: es, h => by
    have he : e.length = n := h e (by simp)
    have hl : (e :: es).flatten.length / n = es.flatten.length / n + 1 := by
      simp only [List.flatten_cons, List.length_append, he]
      rw [Nat.add_comm, Nat.add_div_right _ hn]
    have ih := elements_flatten hn es (fun x hx => h x (by simp [hx]))
    unfold elements at ih ⊢
    rw [hl, List.range_succ_eq_map, List.map_cons, List.map_map]
    congr 1
    · rw [Nat.zero_mul, List.drop_zero, List.flatten_cons, ← he, List.take_left]
    · refine Eq.trans ?_ ih
      apply List.map_congr_left
      intro i _
      simp only [Function.comp, List.flatten_cons, Nat.succ_eq_add_one]
      rw [show (i + 1) * n = e.length + i * n by rw [he]; ring, ← List.drop_drop, List.drop_left]

/-- **C62** (typed view).  A channel of a type, filled by any sequence of pushes and extends with whole elements of that type,
    is read back under that type as exactly these elements, and under no other type. -/
theorem c62_typed_view (env : Env) (hs : env.strict = false) (cap : Nat) (hc : 2 ≤ cap) (ty : Ty)
    (opsE : List (Op × List (List UInt8))) (he : ∀ p ∈ opsE, (∀ e ∈ p.2, e.length = ty.size) ∧ p.1.bytes = p.2.flatten)
    (ht : ∀ p ∈ opsE, ∀ t b, p.1 = .extend t b → t = ty) :
    ∃ c, ((new cap ty).bind fun c => c.run env (opsE.map Prod.fst)) = .ok c ∧
      c.reinterpret ty = .ok (opsE.flatMap Prod.snd) ∧ ∀ t, t ≠ ty → ∃ e, c.reinterpret t = .error e := by
  obtain ⟨c, e1, e2, e3, e4, e5, e6, e7⟩ := new_spec (ty := ty) (show 0 < cap by omega)
  obtain ⟨d, f1, f2, f3, f4, f5, f6, f7, f8⟩ := run_spec env (opsE.map Prod.fst) e2 (by omega)
    (by rw [e6]; intro op hop; obtain ⟨p, hp, rfl⟩ := List.mem_map.1 hop; exact ht p hp) (by simp [hs])
  have hsz : 0 < ty.size := by cases ty <;> decide
  have hv : d.view = (opsE.flatMap Prod.snd).flatten := by
    rw [f3, e3, List.nil_append]
    clear f1 f3 f7 f8 ht
    induction opsE with
    | nil => rfl
    | cons p ps ih =>
      simp only [List.map_cons, List.flatMap_cons, List.flatten_append, (he p (by simp)).2]
      rw [ih (fun q hq => he q (by simp [hq]))]
  have hall : ∀ e ∈ opsE.flatMap Prod.snd, e.length = ty.size := by
    intro e h
    obtain ⟨p, hp, hpe⟩ := List.mem_flatMap.1 h
    exact (he p hp).1 e hpe
  have hlen : d.length = (opsE.flatMap Prod.snd).length * ty.size := by
    have : d.length = d.view.length := by
      rw [Channel.view, List.length_take, f2.1, Nat.min_eq_left f2.2]
    rw [this, hv]
    generalize opsE.flatMap Prod.snd = es at hall
    induction es with
    | nil => simp
    | cons x xs ih =>
      simp only [List.flatten_cons, List.length_append, List.length_cons, hall x (by simp)]
      rw [ih (fun e h => hall e (by simp [h]))]; ring
  refine ⟨d, by rw [e1]; exact f1, ?_, ?_⟩
  · rw [Channel.reinterpret, if_neg (by rw [hlen]; simp), if_neg (by rw [f5, e6]; simp), hv, elements_flatten hsz _ hall]
  · intro t htn
    rw [Channel.reinterpret]
    split
    · exact ⟨_, rfl⟩
    · rw [if_pos (by rw [f5, e6]; exact htn)]; exact ⟨_, rfl⟩

example : (((new 2 .u16).bind fun c => c.run ⟨fun _ => 0, false⟩ [.push [1, 2], .extend .u16 [3, 4, 5, 6]]).map
      fun c => (c.reinterpret .u16, c.reinterpret .u8)) =
    .ok (.ok [[1, 2], [3, 4], [5, 6]], .error .differentType) := by
  decide +kernel

theorem view_length {c : Channel} (h : c.Ok) : c.view.length = c.length := by
  rw [Channel.view, List.length_take, h.1, Nat.min_eq_left h.2]

theorem all_zip_beq : ∀ (a b : List UInt8), a.length = b.length → ((a.zip b).all (fun p => p.1 == p.2) = true ↔ a = b)
  | [], [], _ => by simp
  | x :: a, y :: b, h => by
    simp only [List.zip_cons_cons, List.all_cons, Bool.and_eq_true, beq_iff_eq, List.cons.injEq]
    rw [all_zip_beq a b (by simpa using h)]

/-- **C62** (comparison).  Two channels compare equal exactly when they have the same type and the same bytes, whatever their
    capacities and whatever lies behind the stored bytes. -/
theorem c62_eq (a b : Channel) (ha : a.Ok) (hb : b.Ok) : a.eq b = true ↔ a.ty = b.ty ∧ a.view = b.view := by
  have la := view_length ha
  have lb := view_length hb
  unfold Channel.eq
  by_cases h1 : a.length = b.length
  · rw [if_neg (by simp [h1])]
    by_cases h2 : a.ty = b.ty
    · rw [if_neg (by simp [h2]), all_zip_beq _ _ (by omega)]
      simp [h2]
    · rw [if_pos (by simp [h2])]; simp [h2]
  · rw [if_pos (by simp [h1])]
    simp only [Bool.false_eq_true, false_iff]
    rintro ⟨_, h⟩
    exact h1 (by rw [← la, ← lb, h])

example : Channel.eq ⟨[1, 2, 9], 2, 3, .u8, 3⟩ ⟨[1, 2], 2, 2, .u8, 2⟩ = true ∧
    Channel.eq ⟨[1, 2, 9], 2, 3, .u8, 3⟩ ⟨[1, 2], 2, 2, .u16, 2⟩ = false := by decide

/-- **C62** (clone).  A clone never reallocates (so the strictest allocator accepts it), and it compares equal to the original
    and has its capacity. -/
theorem c62_clone (env : Env) (c : Channel) (h : c.Ok) (h0 : 0 < c.capacity) :
    ∃ d, c.clone env = .ok d ∧ d.Ok ∧ d.eq c = true ∧ d.capacity = c.capacity ∧ d.layout = d.mem.length := by
  obtain ⟨a, e1, e2, e3, e4, e5, e6, e7⟩ := new_spec (ty := c.ty) h0
  obtain ⟨d, f1, f2, f3, f4, f5, f6, f7⟩ := write_spec e2 (b := c.view) (by rw [view_length h, e4, e5]; have := h.2; omega)
  refine ⟨d, ?_, f2, ?_, by omega, by rw [f2.1]; omega⟩
  · rw [Channel.clone, e1]
    show a.extendUnchecked env c.view = _
    rw [Channel.extendUnchecked, if_pos (by simp [Channel.hasCapacity, view_length h, e4, e5]; exact h.2)]
    exact f1
  · rw [c62_eq _ _ f2 h]
    exact ⟨by rw [f5, e6], by rw [f3, e3]; rfl⟩

example : (Channel.clone ⟨fun _ => 0, true⟩ ⟨[1, 2, 9], 2, 3, .u8, 7⟩).map Channel.view = .ok [1, 2] := by decide +kernel

/-- **C62** (`from_elm`).  The channel made of `n` copies of an element reads back as these. -/
theorem c62_from_elm (n : Nat) (ty : Ty) (e : List UInt8) (he : e.length = ty.size) (hn : 0 < n) :
    ∃ c, fromElm n ty e = .ok (some c) ∧ c.reinterpret ty = .ok (List.replicate n e) := by
  have hsz : 0 < ty.size := by cases ty <;> decide
  have hcap : n * ty.size ≠ 0 := by positivity
  have hel : (elements ty.size (List.replicate (n * ty.size) (0 : UInt8))).map (fun _ => e) = List.replicate n e := by
    rw [List.map_const', elements, List.length_map, List.length_range, List.length_replicate, Nat.mul_div_cancel _ hsz]
  refine ⟨⟨(List.replicate n e).flatten, n * ty.size, n * ty.size, ty, n * ty.size⟩, ?_, ?_⟩
  · rw [fromElm, newWithLength, new, if_neg hcap]
    simp only [Except.map, Channel.fill, Channel.reinterpret]
    rw [if_neg (by simp), if_neg (by simp)]
    simp only [Channel.view, List.take_replicate, Nat.min_self, hel, Except.toOption]
    simp
  · have hl : (List.replicate n e).flatten.length = n * ty.size := by simp [he]
    simp only [Channel.reinterpret, Channel.view]
    rw [if_neg (by simp), if_neg (by simp), List.take_of_length_le (by omega), elements_flatten hsz _ (by simp [he])]

example : (fromElm 3 .u16 [1, 2]).map (·.map Channel.view) = .ok (some [1, 2, 1, 2, 1, 2]) := by decide +kernel

end Zune.Chan
