import Verif.Jpeg.HeaderLemmas

/-!
# The reading of JPEG headers neither panics nor loops
-/

namespace Zune.Jpeg

/-- No panic and no endless loop. -/
def Tame : HdrErr → Prop := fun e => e = .io ∨ e = .bad

/-- A result that is either an ordinary error or satisfies `P`. -/
def Fine {α : Type} (P : α → Prop) : Hd α → Prop
  | .ok x => P x
  | .error e => Tame e

theorem Fine.bind {α β : Type} {P : α → Prop} {Q : β → Prop} {x : Hd α} {f : α → Hd β} (h : Fine P x)
    (hf : ∀ a, P a → Fine Q (f a)) : Fine Q (x.bind f) := by
  cases x with
  | ok a => exact hf a h
  | error e => exact h

theorem Fine.bad {α : Type} {P : α → Prop} : Fine P (.error .bad : Hd α) := Or.inr rfl

theorem Fine.mono {α : Type} {P Q : α → Prop} {x : Hd α} (h : Fine P x) (hq : ∀ a, P a → Q a) : Fine Q x := by
  cases x with
  | ok a => exact hq a h
  | error e => exact h

theorem Fine.ite {α : Type} {P : α → Prop} {c : Prop} [Decidable c] {x y : Hd α} (hx : c → Fine P x) (hy : ¬ c → Fine P y) :
    Fine P (if c then x else y) := by
  split
  · exact hx ‹_›
  · exact hy ‹_›

theorem u8e_fine (s : Bytes) : Fine (fun x => x.2.length < s.length) (u8e s) := by
  cases s with
  | nil => exact Or.inl rfl
  | cons b s => simp [u8e, Fine]

theorem u16e_fine (s : Bytes) : Fine (fun x => x.2.length < s.length) (u16e s) := by
  match s with
  | [] => exact Or.inl rfl
  | [_] => exact Or.inl rfl
  | _ :: _ :: s => simp [u16e, Fine]; omega

theorem exactly_fine (n : Nat) (s : Bytes) : Fine (fun x => x.1.length = n ∧ x.2.length ≤ s.length) (exactly n s) := by
  unfold exactly
  split
  · simp [Fine]; omega
  · exact Or.inl rfl

theorem peek_fine (n : Nat) (s : Bytes) : Fine (fun _ => True) (peek n s) := by
  unfold peek
  split
  · trivial
  · exact Or.inl rfl

theorem tagged_fine (t : Bytes) (n : Nat) (s : Bytes) : Fine (fun _ => True) (tagged t n s) :=
  Fine.ite (fun _ => (peek_fine _ _).bind fun _ _ => trivial) fun _ => trivial

theorem u16z_le (s : Bytes) : (u16z s).2.length ≤ s.length := by
  match s with
  | [] => exact Nat.le_refl _
  | [_] => exact Nat.le_refl _
  | _ :: _ :: s => simp [u16z]; omega

theorem u8z_le (s : Bytes) : (u8z s).2.length ≤ s.length := by
  cases s with
  | nil => exact Nat.le_refl _
  | cons b s => simp [u8z]

/-- What holds of the decoder at all times: the number of components is that of the list, the AC tables have their
lookup table, the components of the scan exist, sampling factors are not zero, and they are those of an earlier state `d0`
if that had a frame header. -/
def Sound (d0 d : Hdr) : Prop :=
  d.ncomp = d.comps.length ∧ (∀ j u, d.ac j = some u → u.acLookup.isSome) ∧ (∀ k ∈ d.zorder, k < max 1 d.comps.length) ∧
    (d.seen = false → d.comps = []) ∧ (∀ c ∈ d.comps, 1 ≤ c.h ∧ 1 ≤ c.v) ∧
    (d0.seen = true → d.seen = true ∧ d.comps.map (fun c => (c.h, c.v)) = d0.comps.map fun c => (c.h, c.v))

/-- What holds of the decoder and the stream after a segment: it is sound, and no bytes come back. -/
def Sane (d0 : Hdr) (n : Nat) : Hdr × Bytes → Prop := fun x => Sound d0 x.1 ∧ x.2.length ≤ n

theorem new_lookup {b v : Nat → Nat} {t : Huff} (h : Huff.new b v false = .ok t) : t.acLookup.isSome := by
  unfold Huff.new at h
  simp only [Bool.false_eq_true, if_false, false_and] at h
  split at h
  · cases h
  · split at h
    · cases h
    · split at h
      · cases h
      · split at h
        · cases h
        · rename_i ac e
          cases h
          simp only [Option.map_eq_some_iff] at e
          obtain ⟨f, -, rfl⟩ := e
          rfl

theorem huff_fine (c v : Bytes) (dc : Bool) (hc : c.length = 16) (hs : (c.map (·.toNat)).sum ≤ 256) :
    Fine (fun t => dc = false → t.acLookup.isSome) (ofHuff (Huff.new (countsOf c) (symbolsOf v) dc)) := by
  cases h : Huff.new (countsOf c) (symbolsOf v) dc with
  | ok t => exact fun q => new_lookup (q ▸ h)
  | error e =>
    have : e = .bad := by
      have hb : Zune.Canon.before (countsOf c) 17 ≤ 256 := by
        have e1 := before_all { ac := false, id := 0, counts := c.map (·.toNat), syms := [] } (by simpa using hc)
        have e2 := count_eq { ac := false, id := 0, counts := c.map (·.toNat), syms := [] } (by
          intro x hx
          obtain ⟨y, _, rfl⟩ := List.mem_map.1 hx
          exact u8_lt y)
        have e3 : (c.map (·.toNat)).map UInt8.ofNat = c := by
          rw [List.map_map]
          exact (List.map_congr_left fun x _ => ofNat_u8 x).trans (List.map_id _)
        simp only [e3] at e2
        rw [e2, e1]
        exact hs
      by_contra q
      obtain ⟨e', a, b⟩ := new_err (countsOf c) (symbolsOf v) dc rfl (fun g => by
        obtain ⟨t, a, _⟩ := new_good (countsOf c) (symbolsOf v) dc rfl g.1 g.2.1 g.2.2
        rw [h] at a
        cases a)
      rw [h] at a
      cases a
      exact q (b hb)
    subst this
    exact Or.inr rfl

theorem dht_fine (d0 : Hdr) (n : Nat) (f : Nat) : ∀ (len : Nat) (d : Hdr) (s : Bytes), len < f → Sound d0 d → s.length ≤ n →
    Fine (Sane d0 n) (dhtLoop f len d s) := by
  induction f with
  | zero => intro len d s h; omega
  | succ f ih =>
    intro len d s hf hd hs
    rw [dhtLoop]
    refine Fine.ite (fun _ => Fine.ite (fun _ => .bad) fun _ => ⟨hd, hs⟩) fun h1 => ?_
    refine (u8e_fine s).bind fun x hx => ?_
    refine Fine.ite (fun _ => .bad) fun _ => Fine.ite (fun _ => .bad) fun _ => ?_
    refine (exactly_fine 16 x.2).bind fun c hc => ?_
    refine Fine.ite (fun _ => .bad) fun h2 => Fine.ite (fun _ => .bad) fun _ => ?_
    refine (exactly_fine _ c.2).bind fun v hv => ?_
    refine (huff_fine c.1 v.1 _ hc.1 (by simpa using h2)).bind fun t ht => ?_
    refine ih _ _ _ (by omega) ?_ (by omega)
    split
    · exact hd
    · rename_i q
      obtain ⟨a1, a2, a3⟩ := hd
      refine ⟨a1, ?_, a3⟩
      intro j u hu
      simp only [upd] at hu
      split at hu
      · cases hu
        exact ht (by simpa using q)
      · exact a2 j u hu

theorem qtValues_fine (p : Nat) (s : Bytes) : Fine (fun x => x.2.length ≤ s.length) (qtValues p s) := by
  unfold qtValues
  refine Fine.ite (fun _ => (exactly_fine _ s).bind fun v hv => hv.2) fun _ => ?_
  refine Fine.ite (fun _ => (exactly_fine _ s).bind fun v hv => hv.2) fun _ => .bad

theorem dqt_fine (d0 : Hdr) (n : Nat) (f : Nat) : ∀ (len : Nat) (d : Hdr) (s : Bytes), len < f → Sound d0 d → s.length ≤ n →
    Fine (Sane d0 n) (dqtLoop f len d s) := by
  induction f with
  | zero => intro len d s h; omega
  | succ f ih =>
    intro len d s hf hd hs
    rw [dqtLoop]
    refine Fine.ite (fun _ => ⟨hd, hs⟩) fun h1 => ?_
    refine (u8e_fine s).bind fun x hx => ?_
    refine Fine.ite (fun _ => .bad) fun _ => ?_
    refine (qtValues_fine _ x.2).bind fun v hv => ?_
    refine Fine.ite (fun _ => .bad) fun _ => ?_
    exact ih _ _ _ (by omega) hd (by omega)

theorem sofComps_fine (n : Nat) : ∀ (pos : Nat) (s : Bytes),
    Fine (fun x => x.1.length = n ∧ (∀ c ∈ x.1, 1 ≤ c.h ∧ 1 ≤ c.v) ∧ x.2.length ≤ s.length) (sofComps n pos s) := by
  induction n with
  | zero => intro pos s; exact ⟨rfl, by simp, Nat.le_refl _⟩
  | succ n ih =>
    intro pos s
    rw [sofComps]
    refine (exactly_fine 3 s).bind fun a ha => ?_
    have : Fine (fun c => 1 ≤ c.h ∧ 1 ≤ c.v) (compFrom a.1 pos) := by
      unfold compFrom
      refine Fine.ite (fun _ => .bad) fun _ => Fine.ite (fun _ => .bad) fun _ => Fine.ite (fun _ => .bad) fun _ =>
        Fine.ite (fun _ => .bad) fun _ => Fine.ite (fun _ => .bad) fun q => Fine.ite (fun _ => .bad) fun r => ⟨?_, ?_⟩
      · refine Nat.one_le_iff_ne_zero.2 fun e => q ?_
        simp only at e
        rw [e]
        decide
      · exact Nat.one_le_iff_ne_zero.2 r
    refine this.bind fun c hc => (ih (pos + 1) a.2).bind fun x hx => ⟨by simp [hx.1], ?_, by have := hx.2.2; simp only; omega⟩
    intro e he
    rcases List.mem_cons.1 he with rfl | he
    · exact hc
    · exact hx.2.1 e he

theorem sof_fine (o : HdrOpts) (d0 d : Hdr) (s : Bytes) (hd : Sound d0 d) : Fine (Sane d0 s.length) (parseSof o d s) := by
  unfold parseSof
  refine Fine.ite (fun _ => .bad) fun hs => ?_
  refine (u16e_fine s).bind fun a ha => (u8e_fine a.2).bind fun b hb => Fine.ite (fun _ => .bad) fun _ => ?_
  refine (u16e_fine b.2).bind fun h hh => (u16e_fine h.2).bind fun w hw => ?_
  refine Fine.ite (fun _ => .bad) fun _ => Fine.ite (fun _ => .bad) fun _ => Fine.ite (fun _ => .bad) fun _ => ?_
  refine (u8e_fine w.2).bind fun n hn => Fine.ite (fun _ => .bad) fun _ => Fine.ite (fun _ => .bad) fun _ => ?_
  obtain ⟨-, a2, a3, a4, -, a6⟩ := hd
  rw [Bool.not_eq_true] at hs
  refine (sofComps_fine n.1 0 n.2).bind fun x hx => ⟨⟨hx.1.symm, a2, ?_, by simp, hx.2.1, ?_⟩, by have := hx.2.2; simp only; omega⟩
  · intro k hk
    have := a3 k hk
    rw [a4 hs] at this
    simp only [List.length_nil] at this
    omega
  · intro q
    rw [(a6 q).1] at hs
    cases hs

theorem findComp_fine (cs : List HComp) (id : Nat) (f : Nat) : ∀ j, j ≤ cs.length →
    Fine (fun k => k ≤ cs.length) (findComp cs cs.length id f j) := by
  induction f with
  | zero => intro j h; exact h
  | succ f ih =>
    intro j h
    rw [findComp]
    refine Fine.ite (fun h1 => ?_) fun _ => h
    rw [List.getElem?_eq_getElem h1]
    exact Fine.ite (fun _ => h) fun _ => ih _ (by omega)

theorem sosComps_fine (d0 : Hdr) (m : Nat) (n : Nat) : ∀ (i : Nat) (ids : List Nat) (d : Hdr) (s : Bytes), i + n ≤ 4 →
    Sound d0 d → s.length ≤ m → Fine (Sane d0 m) (sosComps n i ids d s) := by
  induction n with
  | zero => intro i ids d s _ hd hs; exact ⟨hd, hs⟩
  | succ n ih =>
    intro i ids d s hi hd hs
    rw [sosComps]
    refine (u8e_fine s).bind fun x hx => Fine.ite (fun _ => .bad) fun _ => (u8e_fine x.2).bind fun y hy => ?_
    rw [hd.1]
    refine (findComp_fine d.comps x.1 d.comps.length 0 (by omega)).bind fun j hj => Fine.ite (fun _ => .bad) fun hne => ?_
    have hlt : j < d.comps.length := by omega
    rw [List.getElem?_eq_getElem hlt]
    simp only
    rw [if_pos (by omega)]
    refine ih _ _ _ _ (by omega) ?_ (by omega)
    obtain ⟨a1, a2, a3, a4, a5, a6⟩ := hd
    have hc := a5 d.comps[j] (List.getElem_mem hlt)
    refine ⟨by simp, a2, ?_, ?_, ?_, ?_⟩
    · intro k hk
      simp only [List.length_set]
      rcases List.mem_or_eq_of_mem_set hk with hk | rfl
      · exact a3 k hk
      · omega
    · intro q
      have := a4 q
      rw [this] at hlt
      simp at hlt
    · intro e he
      rcases List.mem_or_eq_of_mem_set he with he | rfl
      · exact a5 e he
      · exact hc
    · intro q
      refine ⟨(a6 q).1, ?_⟩
      rw [← (a6 q).2, List.map_set]
      refine List.ext_getElem? fun t => ?_
      rw [List.getElem?_set]
      split
      · rename_i e
        subst e
        rw [List.length_map, if_pos hlt, List.getElem?_map, List.getElem?_eq_getElem hlt]
        rfl
      · rfl

theorem sos_fine (d0 d : Hdr) (s : Bytes) (hd : Sound d0 d) : Fine (Sane d0 s.length) (parseSos d s) := by
  unfold parseSos
  refine (u16e_fine s).bind fun a ha => (u8e_fine a.2).bind fun b hb => Fine.ite (fun _ => .bad) fun _ =>
    Fine.ite (fun _ => .bad) fun h1 => Fine.ite (fun _ => .bad) fun _ => ?_
  refine (sosComps_fine d0 s.length b.1 0 [] { d with ns := b.1, sub := false } b.2 (by omega) hd (by omega)).bind fun c hc => ?_
  refine (u8e_fine c.2).bind fun u hu => (u8e_fine u.2).bind fun v hv => (u8e_fine v.2).bind fun w hw => ?_
  refine Fine.ite (fun _ => .bad) fun _ => Fine.ite (fun _ => .bad) fun _ => Fine.ite (fun _ => .bad) fun _ =>
    Fine.ite (fun _ => .bad) fun _ => ⟨hc.1, ?_⟩
  have := hc.2
  simp only
  omega

theorem Sound.self {d0 d : Hdr} (h : Sound d0 d) : Sound d d := ⟨h.1, h.2.1, h.2.2.1, h.2.2.2.1, h.2.2.2.2.1, fun q => ⟨q, rfl⟩⟩

/-- A scan header takes bytes, and there are components. -/
theorem sos_some (d0 d : Hdr) (s : Bytes) (hd : Sound d0 d) :
    Fine (fun x => Sane d0 s.length x ∧ x.1.comps ≠ [] ∧ x.2.length < s.length) (parseSos d s) := by
  have h1 := sos_fine d0 d s hd
  have h2 := sos_fine d d s hd.self
  cases e : parseSos d s with
  | error e' => rw [e] at h1; exact h1
  | ok x =>
    rw [e] at h1 h2
    refine ⟨h1, ?_, ?_⟩
    · have hn : d.comps ≠ [] := by
        unfold parseSos at e
        rw [bind_ok] at e
        obtain ⟨_, _, e⟩ := e
        rw [bind_ok] at e
        obtain ⟨_, _, e⟩ := e
        replace e := (ite_err.1 (ite_err.1 (ite_err.1 e).2).2).1
        rw [hd.1] at e
        exact fun q => e (by rw [q]; rfl)
      have hs : d.seen = true := by
        by_contra q
        rw [Bool.not_eq_true] at q
        exact hn (hd.2.2.2.1 q)
      intro q
      have := congrArg List.length (h2.1.2.2.2.2.2 hs).2
      rw [q] at this
      simp only [List.map_nil, List.length_nil, List.length_map] at this
      exact hn (List.eq_nil_of_length_eq_zero this.symm)
    · have : Fine (fun x => x.2.length < s.length) (parseSos d s) := by
        unfold parseSos
        refine (u16e_fine s).bind fun a ha => (u8e_fine a.2).bind fun b hb => Fine.ite (fun _ => .bad) fun _ =>
          Fine.ite (fun _ => .bad) fun h1 => Fine.ite (fun _ => .bad) fun _ => ?_
        refine (sosComps_fine d0 b.2.length b.1 0 [] { d with ns := b.1, sub := false } b.2 (by omega) hd (by omega)).bind fun c hc => ?_
        refine (u8e_fine c.2).bind fun u hu => (u8e_fine u.2).bind fun v hv => (u8e_fine v.2).bind fun w hw => ?_
        refine Fine.ite (fun _ => .bad) fun _ => Fine.ite (fun _ => .bad) fun _ => Fine.ite (fun _ => .bad) fun _ =>
          Fine.ite (fun _ => .bad) fun _ => ?_
        have := hc.2
        show w.2.length < s.length
        omega
      rw [e] at this
      exact this

theorem drop_le (n : Nat) (s : Bytes) : (s.drop n).length ≤ s.length := by simp

theorem app13_fine (d0 d : Hdr) (s : Bytes) (hd : Sound d0 d) : Fine (Sane d0 s.length) (parseApp13 d s) := by
  have h1 := u16z_le s
  unfold parseApp13
  generalize u16z s = a at h1 ⊢
  obtain ⟨n, u⟩ := a
  simp only at h1 ⊢
  refine Fine.ite (fun _ => .bad) fun _ => (tagged_fine _ _ _).bind fun t _ => Fine.ite (fun _ => ?_) fun _ => ⟨hd, ?_⟩
  · exact (peek_fine _ _).bind fun v _ => ⟨hd, by simp only [List.length_drop]; omega⟩
  · simp only [List.length_drop]; omega

theorem app14_fine (d0 d : Hdr) (s : Bytes) (hd : Sound d0 d) : Fine (Sane d0 s.length) (parseApp14 d s) := by
  have h1 := u16z_le s
  unfold parseApp14
  generalize u16z s = a at h1 ⊢
  obtain ⟨n, u⟩ := a
  have h2 := u8z_le ((u.drop 6).drop 5)
  simp only [List.length_drop] at h1 h2 ⊢
  generalize u8z ((u.drop 6).drop 5) = b at h2 ⊢
  obtain ⟨t, v⟩ := b
  simp only at h2 ⊢
  refine Fine.ite (fun _ => .bad) fun _ => (peek_fine _ _).bind fun t _ => Fine.ite (fun _ => ?_) fun _ => ⟨hd, ?_⟩
  · refine Fine.ite (fun _ => .bad) fun _ => Fine.ite (fun _ => ⟨hd, ?_⟩) fun _ => Fine.ite (fun _ => ⟨hd, ?_⟩) fun _ =>
      Fine.ite (fun _ => ⟨hd, ?_⟩) fun _ => .bad
    all_goals
      simp only [List.length_drop]
      omega
  · simp only [List.length_drop]; omega

theorem app1_fine (d0 d : Hdr) (s : Bytes) (hd : Sound d0 d) : Fine (Sane d0 s.length) (parseApp1 d s) := by
  have h1 := u16z_le s
  unfold parseApp1
  generalize u16z s = a at h1 ⊢
  obtain ⟨n, u⟩ := a
  simp only at h1 ⊢
  refine Fine.ite (fun _ => .bad) fun _ => (tagged_fine _ _ _).bind fun t _ => Fine.ite (fun _ => ?_) fun _ => ?_
  · exact (peek_fine _ _).bind fun v _ => ⟨hd, by simp only [List.length_drop]; omega⟩
  · refine (tagged_fine _ _ _).bind fun t _ => Fine.ite (fun _ => ?_) fun _ => ⟨hd, ?_⟩
    · exact (peek_fine _ _).bind fun v _ => ⟨hd, by simp only [List.length_drop]; omega⟩
    · simp only [List.length_drop]; omega

theorem gain_fine (d0 d : Hdr) (len : Nat) (s : Bytes) (hd : Sound d0 d) : Fine (Sane d0 s.length) (gainMap d len s) := by
  unfold gainMap
  refine Fine.ite (fun _ => ⟨hd, (u16z_le _).trans (u16z_le _)⟩) fun _ => Fine.ite (fun _ => ?_) fun _ => ⟨hd, drop_le _ _⟩
  exact (peek_fine _ _).bind fun v _ => ⟨hd, drop_le _ _⟩

theorem app2_fine (d0 d : Hdr) (s : Bytes) (hd : Sound d0 d) : Fine (Sane d0 s.length) (parseApp2 d s) := by
  have h1 := u16z_le s
  unfold parseApp2
  generalize u16z s = a at h1 ⊢
  obtain ⟨n, u⟩ := a
  have h2 := u8z_le (u.drop 12)
  simp only [List.length_drop] at h1 h2 ⊢
  generalize u8z (u.drop 12) = b at h2 ⊢
  obtain ⟨q, v⟩ := b
  have h3 := u8z_le v
  simp only at h2 h3 ⊢
  generalize u8z v = c at h3 ⊢
  obtain ⟨m, w⟩ := c
  simp only at h3 ⊢
  refine Fine.ite (fun _ => .bad) fun _ => ?_
  have : Fine (fun _ => True) (iccTagged (n - 2) u) :=
    Fine.ite (fun _ => (peek_fine _ _).bind fun _ _ => trivial) fun _ => trivial
  refine this.bind fun t _ => Fine.ite (fun _ => ?_) fun _ => ?_
  · refine (peek_fine _ _).bind fun v _ => ⟨hd, ?_⟩
    simp only [List.length_drop]
    omega
  · refine (tagged_fine _ _ _).bind fun t _ => Fine.ite (fun _ => ?_) fun _ => ?_
    · exact (gain_fine d0 d _ _ hd).mono fun x hx => ⟨hx.1, by have := hx.2; simp only [List.length_drop] at this; omega⟩
    · refine (tagged_fine _ _ _).bind fun t _ => Fine.ite (fun _ => ?_) fun _ => ⟨hd, ?_⟩
      · exact (peek_fine _ _).bind fun v _ => ⟨hd, by simp only [List.length_drop]; omega⟩
      · simp only [List.length_drop]; omega

theorem marker_fine (o : HdrOpts) (m : Nat) (d0 d : Hdr) (s : Bytes) (hd : Sound d0 d) :
    Fine (Sane d0 s.length) (parseMarker o m d s) := by
  unfold parseMarker
  refine Fine.ite (fun _ => sof_fine o d0 d s hd) fun _ => Fine.ite (fun _ => sof_fine o d0 _ s hd) fun _ => Fine.ite (fun _ => ?_) fun _ =>
    Fine.ite (fun _ => app1_fine d0 d s hd) fun _ => Fine.ite (fun _ => app2_fine d0 d s hd) fun _ => Fine.ite (fun _ => ?_) fun _ =>
    Fine.ite (fun _ => ?_) fun _ => Fine.ite (fun _ => sos_fine d0 d s hd) fun _ => Fine.ite (fun _ => .bad) fun _ =>
    Fine.ite (fun _ => .bad) fun _ => Fine.ite (fun _ => ?_) fun _ => Fine.ite (fun _ => app14_fine d0 d s hd) fun _ =>
    Fine.ite (fun _ => app13_fine d0 d s hd) fun _ => ?_
  · unfold parseApp0
    refine (u16e_fine s).bind fun a ha => Fine.ite (fun _ => .bad) fun _ => Fine.ite (fun _ => ?_) fun _ => ⟨hd, ?_⟩
    · refine (exactly_fine _ _).bind fun b hb => ⟨hd, ?_⟩
      have := hb.2
      simp only [List.length_drop]
      omega
    · simp only [List.length_drop]; omega
  · unfold parseDqt
    exact (u16e_fine s).bind fun a ha => Fine.ite (fun _ => .bad) fun _ => dqt_fine d0 _ _ _ _ _ (by omega) hd (by omega)
  · unfold parseDht
    exact (u16e_fine s).bind fun a ha => Fine.ite (fun _ => .bad) fun _ => dht_fine d0 _ _ _ _ _ (by omega) hd (by omega)
  · unfold parseDri
    exact (u16e_fine s).bind fun a ha => Fine.ite (fun _ => .bad) fun _ => (u16e_fine a.2).bind fun b hb => ⟨hd, by simp only; omega⟩
  · unfold parseOther
    exact (u16e_fine s).bind fun a ha => Fine.ite (fun _ => .bad) fun _ => ⟨hd, by simp only [List.length_drop]; omega⟩

theorem fillLoop_fine (s : Bytes) : ∀ last m, Fine (fun x => x.2.2.length ≤ s.length) (fillLoop last m s) := by
  induction s with
  | nil => intro last m; exact Fine.ite (fun _ => Or.inl rfl) fun _ => Nat.le_refl _
  | cons b s ih =>
    intro last m
    exact Fine.ite (fun _ => (ih _ _).mono fun x hx => by simp only [List.length_cons]; omega) fun _ => Nat.le_refl _

theorem loop_fine (o : HdrOpts) (d0 : Hdr) (f : Nat) : ∀ (last cnt : Nat) (d : Hdr) (s : Bytes), s.length < f → Sound d0 d →
    Fine (fun x => Sane d0 s.length x ∧ x.1.comps ≠ []) (hdrLoop o f last cnt d s) := by
  induction f with
  | zero => intro last cnt d s h; omega
  | succ f ih =>
    intro last cnt d s hf hd
    rw [hdrLoop]
    refine (u8e_fine s).bind fun a ha => ?_
    have : Fine (fun x => x.2.2.length ≤ a.2.length) (skipFill last a.1 a.2) :=
      Fine.ite (fun _ => fillLoop_fine _ _ _) fun _ => Nat.le_refl _
    refine this.bind fun b hb => Fine.ite (fun _ => Fine.ite (fun _ => .bad) fun _ => ?_) fun _ => ?_
    · by_cases hm : b.2.1 = 0xDA
      · rw [hm]
        refine (sos_some d0 d b.2.2 hd).bind fun c hc => ?_
        show Fine _ (if 218 = 218 then Except.ok (finishHdr c.1, c.2) else hdrLoop o f 218 1 c.1 c.2)
        rw [if_pos rfl]
        refine ⟨⟨?_, by have := hc.1.2; simp only; omega⟩, ?_⟩
        · simp only [finishHdr]
          split <;> exact hc.1.1
        · simp only [finishHdr]
          split <;> exact hc.2.1
      · refine (marker_fine o _ d0 d b.2.2 hd).bind fun c hc => ?_
        show Fine _ (if b.2.1 = 218 then Except.ok (finishHdr c.1, c.2) else hdrLoop o f b.2.1 1 c.1 c.2)
        rw [if_neg hm]
        refine (ih _ _ c.1 c.2 (by have := hc.2; omega) hc.1).mono fun x hx => ⟨⟨hx.1.1, ?_⟩, hx.2⟩
        have := hx.1.2; have := hc.2; omega
    · refine (ih _ _ d b.2.2 (by omega) hd).mono fun x hx => ⟨⟨hx.1.1, ?_⟩, hx.2⟩
      have := hx.1.2; omega

theorem headers_fine (o : HdrOpts) (s : Bytes) : Fine (fun x => Sane {} s.length x ∧ x.1.comps ≠ []) (decodeHeaders o s) := by
  unfold decodeHeaders
  refine (u16e_fine s).bind fun a ha => Fine.ite (fun _ => .bad) fun _ => ?_
  refine (loop_fine o {} _ 0 0 {} a.2 (by omega) ⟨rfl, by simp, by decide, fun _ => rfl, by simp, by simp⟩).mono fun x hx => ⟨⟨hx.1.1, ?_⟩, hx.2⟩
  have := hx.1.2; omega

end Zune.Jpeg
