import Verif.Jpeg.McuScan
import Verif.Jpeg.HeaderSafe

/-!
# The baseline decoder neither loops for ever nor leaves its arrays
-/

namespace Zune.Jpeg

/-! ## The bit stream -/

/-- A result that satisfies `P`, or an error that is not a panic. -/
def BFine {α : Type} (P : α → Prop) : Except JErr α → Prop
  | .ok x => P x
  | .error e => e ≠ .panic

theorem u8_le (l : List UInt8) : (Stream.u8 l).2.length ≤ l.length := by
  cases l with
  | nil => exact Nat.le_refl _
  | cons b t => simp [Stream.u8]

theorem refillByte_fine (s : Bs) : BFine (fun x => x.2.rest.length ≤ s.rest.length) s.refillByte := by
  have h1 := u8_le s.rest
  have h2 := nextByte_le (Stream.u8 s.rest).2
  unfold Bs.refillByte
  simp only
  split
  · split
    · show (nextByte (Stream.u8 s.rest).2).2.length ≤ _
      omega
    · split
      · split
        · show (nextByte (Stream.u8 s.rest).2).2.length ≤ _
          omega
        · show (nextByte (Stream.u8 s.rest).2).2.length ≤ _
          omega
      · simp [BFine]
  · exact h1

theorem refillBytes_fine (n : Nat) : ∀ s : Bs, BFine (fun x => x.rest.length ≤ s.rest.length) (Bs.refillBytes n s) := by
  induction n with
  | zero => intro s; exact Nat.le_refl _
  | succ n ih =>
    intro s
    rw [Bs.refillBytes]
    have h := refillByte_fine s
    cases e : s.refillByte with
    | error e' => rw [e] at h; exact h
    | ok x =>
      rw [e] at h
      obtain ⟨b, s'⟩ := x
      cases b with
      | false => exact h
      | true =>
        have h2 := ih s'
        simp only
        cases e2 : Bs.refillBytes n s' with
        | error e' => rw [e2] at h2; exact h2
        | ok y =>
          rw [e2] at h2
          exact Nat.le_trans h2 h

theorem refill_fine (s : Bs) : BFine (fun x => x.rest.length ≤ s.rest.length) s.refill := by
  unfold Bs.refill
  split
  · split
    · exact Nat.le_refl _
    · split
      · rename_i bytes rest e
        split
        · exact refillBytes_fine 4 s
        · have : rest.length ≤ s.rest.length := by
            unfold Stream.exact at e
            split at e
            · cases e; simp
            · cases e
          exact this
      · exact refillBytes_fine 4 s
  · exact Nat.le_refl _

theorem refill32_fine (s : Bs) : BFine (fun x => x.rest.length ≤ s.rest.length) (if s.left < 32 then s.refill else .ok s) := by
  split
  · exact refill_fine s
  · exact Nat.le_refl _

theorem bhuff_fine (s : Bs) (t : Huff) : BFine (fun x => x.2.rest.length ≤ s.rest.length) (s.huff t) := by
  unfold Bs.huff
  split
  · simp [BFine]
  · split
    · simp [BFine]
    · exact Nat.le_refl _

theorem decodeDc_fine (s : Bs) (t : Huff) (p : I32) : BFine (fun x => x.2.rest.length ≤ s.rest.length) (s.decodeDc t p) := by
  unfold Bs.decodeDc
  have h := refill32_fine s
  cases e : (if s.left < 32 then s.refill else .ok s) with
  | error e' => rw [e] at h; exact h
  | ok s1 =>
    rw [e] at h
    have h2 := bhuff_fine s1 t
    simp only
    cases e2 : s1.huff t with
    | error e' => rw [e2] at h2; exact h2
    | ok x =>
      rw [e2] at h2
      simp only
      split
      · exact Nat.le_trans h2 h
      · exact Nat.le_trans h2 h

theorem discardDc_fine (s : Bs) (t : Huff) : BFine (fun x => x.rest.length ≤ s.rest.length) (s.discardDc t) := by
  unfold Bs.discardDc
  have h := refill32_fine s
  cases e : (if s.left < 32 then s.refill else .ok s) with
  | error e' => rw [e] at h; exact h
  | ok s1 =>
    rw [e] at h
    have h2 := bhuff_fine s1 t
    simp only
    cases e2 : s1.huff t with
    | error e' => rw [e2] at h2; exact h2
    | ok x =>
      rw [e2] at h2
      simp only
      split
      · exact Nat.le_trans h2 h
      · exact Nat.le_trans h2 h

theorem acStep_fine (t : Huff) (fast : Nat → Int) (qt : Nat → I32) (pos : Nat) (s : Bs) (b : Nat → I32) :
    BFine (fun x => match x with
      | .inl y => y.2.1.rest.length ≤ s.rest.length
      | .inr y => y.2.1.rest.length ≤ s.rest.length) (Bs.acStep t fast qt pos s b) := by
  unfold Bs.acStep
  have h := refill_fine s
  cases e : s.refill with
  | error e' => rw [e] at h; exact h
  | ok s1 =>
    rw [e] at h
    have h2 := bhuff_fine s1 t
    simp only
    split
    · exact h
    · cases e2 : s1.huff t with
      | error e' => rw [e2] at h2; exact h2
      | ok x =>
        rw [e2] at h2
        simp only
        split
        · exact Nat.le_trans h2 h
        · split
          · exact Nat.le_trans h2 h
          · exact Nat.le_trans h2 h

theorem acLoop_fine (t : Huff) (fast : Nat → Int) (qt : Nat → I32) (f : Nat) : ∀ (pos : Nat) (s : Bs) (b : Nat → I32),
    BFine (fun x => x.2.1.rest.length ≤ s.rest.length) (Bs.acLoop t fast qt f pos s b) := by
  induction f with
  | zero => intro pos s b; exact Nat.le_refl _
  | succ f ih =>
    intro pos s b
    rw [Bs.acLoop]
    split
    · have h := acStep_fine t fast qt pos s b
      cases e : Bs.acStep t fast qt pos s b with
      | error e' => rw [e] at h; exact h
      | ok x =>
        rw [e] at h
        cases x with
        | inl y => exact h
        | inr y =>
          have h2 := ih y.1 y.2.1 y.2.2
          simp only
          cases e2 : Bs.acLoop t fast qt f y.1 y.2.1 y.2.2 with
          | error e' => rw [e2] at h2; exact h2
          | ok z => rw [e2] at h2; exact Nat.le_trans h2 h
    · exact Nat.le_refl _

theorem decodeBlock_fine (s : Bs) (dc ac : Huff) (qt b : Nat → I32) (p : I32) (ha : ac.acLookup.isSome) :
    BFine (fun x => x.s.rest.length ≤ s.rest.length) (s.decodeBlock dc ac qt b p) := by
  obtain ⟨fast, hf⟩ := Option.isSome_iff_exists.1 ha
  unfold Bs.decodeBlock
  rw [hf]
  simp only
  split
  · simp [BFine]
  · have h := decodeDc_fine s dc p
    cases e : s.decodeDc dc p with
    | error e' => rw [e] at h; exact h
    | ok x =>
      rw [e] at h
      have h2 := acLoop_fine ac fast qt 63 1 x.2 (setAt b 0 (x.1 * qt 0))
      simp only
      cases e2 : Bs.acLoop ac fast qt 63 1 x.2 (setAt b 0 (x.1 * qt 0)) with
      | error e' => rw [e2] at h2; exact h2
      | ok z => rw [e2] at h2; exact Nat.le_trans h2 h

theorem skipStep_fine (t : Huff) (fast : Nat → Int) (pos : Nat) (s : Bs) :
    BFine (fun x => match x with
      | .inl y => y.2.rest.length ≤ s.rest.length
      | .inr y => y.2.rest.length ≤ s.rest.length) (Bs.skipStep t fast pos s) := by
  unfold Bs.skipStep
  have h := refill_fine s
  cases e : s.refill with
  | error e' => rw [e] at h; exact h
  | ok s1 =>
    rw [e] at h
    have h2 := bhuff_fine s1 t
    simp only
    split
    · exact h
    · cases e2 : s1.huff t with
      | error e' => rw [e2] at h2; exact h2
      | ok x =>
        rw [e2] at h2
        simp only
        split
        · exact Nat.le_trans h2 h
        · split
          · exact Nat.le_trans h2 h
          · exact Nat.le_trans h2 h

theorem skipLoop_fine (t : Huff) (fast : Nat → Int) (f : Nat) : ∀ (pos : Nat) (s : Bs),
    BFine (fun x => x.2.rest.length ≤ s.rest.length) (Bs.skipLoop t fast f pos s) := by
  induction f with
  | zero => intro pos s; exact Nat.le_refl _
  | succ f ih =>
    intro pos s
    rw [Bs.skipLoop]
    split
    · have h := skipStep_fine t fast pos s
      cases e : Bs.skipStep t fast pos s with
      | error e' => rw [e] at h; exact h
      | ok x =>
        rw [e] at h
        cases x with
        | inl y => exact h
        | inr y =>
          have h2 := ih y.1 y.2
          simp only
          cases e2 : Bs.skipLoop t fast f y.1 y.2 with
          | error e' => rw [e2] at h2; exact h2
          | ok z => rw [e2] at h2; exact Nat.le_trans h2 h
    · exact Nat.le_refl _

theorem discardBlock_fine (s : Bs) (dc ac : Huff) (ha : ac.acLookup.isSome) :
    BFine (fun x => x.2.rest.length ≤ s.rest.length) (s.discardBlock dc ac) := by
  obtain ⟨fast, hf⟩ := Option.isSome_iff_exists.1 ha
  unfold Bs.discardBlock
  rw [hf]
  simp only
  have h := discardDc_fine s dc
  cases e : s.discardDc dc with
  | error e' => rw [e] at h; exact h
  | ok x =>
    rw [e] at h
    have h2 := skipLoop_fine ac fast 63 1 x
    simp only
    cases e2 : Bs.skipLoop ac fast 63 1 x with
    | error e' => rw [e2] at h2; exact h2
    | ok z => rw [e2] at h2; exact Nat.le_trans h2 h

/-! ## The state -/

/-- Errors the decoder means to report: no panic (the storing of blocks aside, if not `all`), no endless loop. -/
def Calm (all : Bool) (e : DecErr) : Prop :=
  e ≠ .fuel ∧ e ≠ .hdr .fuel ∧ e ≠ .hdr .panic ∧ e ≠ .bits .panic ∧ (all = true → e ≠ .panic)

/-- A result that satisfies `P`, or an error the decoder means to report. -/
def Mild {α : Type} (all : Bool) (P : α → Prop) : Except DecErr α → Prop
  | .ok x => P x
  | .error e => Calm all e

theorem Mild.mono {α : Type} {all : Bool} {P Q : α → Prop} {x : Except DecErr α} (h : Mild all P x) (hq : ∀ a, P a → Q a) : Mild all Q x := by
  cases x with
  | ok a => exact hq a h
  | error e => exact h

/-- The buffers of component `k` are large enough for its part of a row of MCUs. -/
def Roomy (d0 : Hdr) (cfg : Cfg) (work : List Work) : Prop :=
  ∀ (k : Nat) (w : Work) (c : HComp), work[k]? = some w → d0.comps[k]? = some c → w.needed = true →
    cfg.mcuX * c.h * 8 ≤ w.stride ∧ w.raw.length = w.stride * c.v * 8

/-- What holds at all times. -/
structure Stays (d0 : Hdr) (cfg : Cfg) (ms : MState) : Prop where
  sound : Sound d0 ms.d
  work : ms.work.length = d0.comps.length
  roomy : cfg.all = true → Roomy d0 cfg ms.work

/-- What stays true, with no bytes coming back. -/
def After (d0 : Hdr) (cfg : Cfg) (ms ms' : MState) : Prop := Stays d0 cfg ms' ∧ ms'.bs.rest.length ≤ ms.bs.rest.length

theorem After.trans {d0 : Hdr} {cfg : Cfg} {a b c : MState} (h : After d0 cfg a b) (h2 : After d0 cfg b c) : After d0 cfg a c :=
  ⟨h2.1, Nat.le_trans h2.2 h.2⟩

/-- The same for the loops. -/
def Halted (d0 : Hdr) (cfg : Cfg) (ms : MState) : Except Halt MState → Prop
  | .ok ms' => After d0 cfg ms ms'
  | .error (.stop ms') => After d0 cfg ms ms'
  | .error (.err e) => Calm cfg.all e

theorem storeAt_fits {chan : List Int} {stride X h v j p1 p2 : Nat} (S : Fin 8 → Fin 8 → Int) (hs : X * h * 8 ≤ stride)
    (hl : chan.length = stride * v * 8) (hj : j < X) (h1 : p1 < v) (h2 : p2 < h) :
    ∃ o, storeAt chan 0 (stride * (p1 * 8) + (j * h + p2) * 8) stride S = some o ∧ o.length = chan.length := by
  have e1 : (j + 1) * h ≤ X * h := Nat.mul_le_mul_right _ hj
  rw [Nat.add_mul, Nat.one_mul] at e1
  have e2 : stride * (p1 + 1) ≤ stride * v := Nat.mul_le_mul_left _ h1
  rw [Nat.mul_add, Nat.mul_one] at e2
  have e3 : stride * (p1 * 8) = stride * p1 * 8 := (Nat.mul_assoc _ _ _).symm
  obtain ⟨o, a, b, -⟩ := storeAt_tile (chan := chan) (pos := stride * (p1 * 8) + (j * h + p2) * 8) (stride := stride) (S := S)
    (by omega) (by rw [hl, e3]; omega)
  exact ⟨o, a, b⟩

theorem oneBlock_mild {d0 : Hdr} {cfg : Cfg} (i j k : Nat) (c c0 : HComp) (dt ac : Huff) (ms : MState) (p : Nat × Nat)
    (h : Stays d0 cfg ms) (hc : d0.comps[k]? = some c0) (hh : c.h = c0.h) (hv : c.v = c0.v) (ha : ac.acLookup.isSome)
    (hj : j < cfg.mcuX) (hp1 : p.1 < c.v) (hp2 : p.2 < c.h) : Halted d0 cfg ms (oneBlock cfg i j k c dt ac ms p) := by
  have hk : k < ms.work.length := by
    rw [h.work]
    exact (List.getElem?_eq_some_iff.1 hc).1
  unfold oneBlock
  rw [List.getElem?_eq_getElem hk]
  simp only
  generalize hw : ms.work[k] = w
  have hwk : ms.work[k]? = some w := by rw [List.getElem?_eq_getElem hk, hw]
  split
  · rename_i hn
    have hf := decodeBlock_fine ms.bs dt ac w.qt (flatBlock (clobber ms.more ms.tmp)) w.pred ha
    split
    · rename_i e
      rw [e] at hf
      exact absurd rfl hf
    · rename_i e' _ e
      rw [e] at hf
      split
      · exact ⟨by simp, by simp, by simp, fun q => (show e' ≠ .panic from hf) (by simpa using q), by simp⟩
      · exact ⟨h, Nat.le_refl _⟩
    · rename_i out e
      rw [e] at hf
      have hset : ∀ w' : Work, (cfg.all = true → w'.stride = w.stride ∧ w'.needed = w.needed ∧ w'.raw.length = w.raw.length) →
          After d0 cfg ms { ms with
            bs := out.s, work := ms.work.set k w', more := decide (10 < out.len),
            tmp := (select cfg.isa out.len (gridBlock out.block)).mem } := by
        intro w' hw'
        refine ⟨⟨h.sound, by simpa using h.work, ?_⟩, hf⟩
        intro hall t u c1 hu hc1 hn1
        obtain ⟨q1, q2, q3⟩ := hw' hall
        simp only at hu
        rw [List.getElem?_set] at hu
        split at hu
        · rename_i ek
          subst ek
          cases hu
          have := h.roomy hall k w c1 hwk hc1 hn
          rw [q1, q3]
          exact this
        · exact h.roomy hall t u c1 hu hc1 hn1
      cases hall : cfg.all with
      | true =>
        obtain ⟨r1, r2⟩ := h.roomy hall k w c0 hwk hc hn
        obtain ⟨o, s1, s2⟩ := storeAt_fits (select cfg.isa out.len (gridBlock out.block)).rows r1 r2 hj (hv ▸ hp1) (hh ▸ hp2)
        rw [if_pos rfl, hh, s1]
        exact hset _ fun _ => ⟨rfl, rfl, s2⟩
      | false =>
        rw [if_neg (by simp)]
        cases storeAt w.whole (i * w.stride * 8 * c.v) (w.stride * (p.1 * 8) + (j * c.h + p.2) * 8) w.stride
            (select cfg.isa out.len (gridBlock out.block)).rows with
        | none => exact ⟨by simp, by simp, by simp, by simp, by simp [hall]⟩
        | some o => exact hset _ fun q => by rw [hall] at q; cases q
  · have hf := discardBlock_fine ms.bs dt ac ha
    split
    · rename_i e
      rw [e] at hf
      exact absurd rfl hf
    · rename_i e' _ e
      rw [e] at hf
      split
      · exact ⟨by simp, by simp, by simp, fun q => (show e' ≠ .panic from hf) (by simpa using q), by simp⟩
      · exact ⟨h, Nat.le_refl _⟩
    · rename_i n bs e
      rw [e] at hf
      exact ⟨⟨h.sound, h.work, h.roomy⟩, hf⟩

theorem Halted.trans {d0 : Hdr} {cfg : Cfg} {a b : MState} {x : Except Halt MState} (h : After d0 cfg a b) (h2 : Halted d0 cfg b x) :
    Halted d0 cfg a x := by
  match x, h2 with
  | .ok _, h2 => exact h.trans h2
  | .error (.stop _), h2 => exact h.trans h2
  | .error (.err _), h2 => exact h2

theorem foldlM_halted {α : Type} {d0 : Hdr} {cfg : Cfg} (f : MState → α → Except Halt MState) (P : MState → Prop) (l : List α)
    (hf : ∀ ms, P ms → Stays d0 cfg ms → ∀ a ∈ l, Halted d0 cfg ms (f ms a))
    (hP : ∀ ms, P ms → ∀ a ∈ l, ∀ ms', f ms a = .ok ms' → P ms') : ∀ ms, P ms → Stays d0 cfg ms → Halted d0 cfg ms (l.foldlM f ms) := by
  induction l with
  | nil => intro ms _ h; exact ⟨h, Nat.le_refl _⟩
  | cons a l ih =>
    intro ms hp h
    have h1 := hf ms hp h a (by simp)
    rw [List.foldlM_cons]
    show Halted d0 cfg ms ((f ms a).bind fun s => l.foldlM f s)
    cases e : f ms a with
    | error x => rw [e] at h1; exact h1
    | ok ms1 =>
      rw [e] at h1
      exact Halted.trans h1 (ih (fun ms hp hs b hb => hf ms hp hs b (List.mem_cons_of_mem _ hb))
        (fun ms hp b hb => hP ms hp b (List.mem_cons_of_mem _ hb)) ms1 (hP ms hp a (by simp) ms1 e) h1.1)

theorem oneBlock_d {cfg : Cfg} {i j k : Nat} {c : HComp} {dt ac : Huff} {ms ms' : MState} {p : Nat × Nat}
    (h : oneBlock cfg i j k c dt ac ms p = .ok ms') : ms'.d = ms.d := by
  unfold oneBlock at h
  split at h
  · cases h
  · split at h
    · split at h
      · cases h
      · split at h <;> cases h
      · simp only at h
        split at h
        · cases h
        · cases h; rfl
    · split at h
      · cases h
      · split at h <;> cases h
      · cases h; rfl

theorem foldlM_d {α : Type} (f : MState → α → Except Halt MState) (l : List α) (hf : ∀ ms, ∀ a ∈ l, ∀ ms', f ms a = .ok ms' → ms'.d = ms.d) :
    ∀ ms ms', l.foldlM f ms = .ok ms' → ms'.d = ms.d := by
  induction l with
  | nil => intro ms ms' h; cases h; rfl
  | cons a l ih =>
    intro ms ms' h
    rw [List.foldlM_cons] at h
    replace h : (f ms a).bind (fun s => l.foldlM f s) = .ok ms' := h
    cases e : f ms a with
    | error x => rw [e] at h; cases h
    | ok ms1 =>
      rw [e] at h
      rw [ih (fun ms b hb => hf ms b (List.mem_cons_of_mem _ hb)) ms1 ms' h, hf ms a (by simp) ms1 e]

theorem oneComp_d {cfg : Cfg} {i j k : Nat} {ms ms' : MState} (h : oneComp cfg i j ms k = .ok ms') : ms'.d = ms.d := by
  unfold oneComp at h
  split at h
  · cases h
  · split at h
    · exact foldlM_d _ _ (fun _ _ _ _ e => oneBlock_d e) _ _ h
    · cases h

theorem pair_get {d0 d : Hdr} (h : d.comps.map (fun c => (c.h, c.v)) = d0.comps.map fun c => (c.h, c.v)) {k : Nat} {c : HComp}
    (hc : d.comps[k]? = some c) : ∃ c0, d0.comps[k]? = some c0 ∧ c.h = c0.h ∧ c.v = c0.v := by
  have e := congrArg (fun l => l[k]?) h
  simp only [List.getElem?_map, hc, Option.map_some] at e
  obtain ⟨c0, a, b⟩ := Option.map_eq_some_iff.1 e.symm
  rw [Prod.mk.injEq] at b
  exact ⟨c0, a, b.1.symm, b.2.symm⟩

theorem oneComp_mild {d0 : Hdr} {cfg : Cfg} (hs : d0.seen = true) (i j k : Nat) (ms : MState) (h : Stays d0 cfg ms)
    (hk : k < ms.d.comps.length) (hj : j < cfg.mcuX) : Halted d0 cfg ms (oneComp cfg i j ms k) := by
  unfold oneComp
  rw [List.getElem?_eq_getElem hk]
  simp only
  generalize hc : ms.d.comps[k] = c
  have hck : ms.d.comps[k]? = some c := by rw [List.getElem?_eq_getElem hk, hc]
  obtain ⟨c0, e0, e1, e2⟩ := pair_get (h.sound.2.2.2.2.2 hs).2 hck
  have hpos := h.sound.2.2.2.2.1 c (List.mem_of_getElem? hck)
  split
  · rename_i dt ac _ ea
    have ha := h.sound.2.1 _ ac ea
    refine foldlM_halted _ (fun _ => True) _ ?_ (fun _ _ _ _ _ _ => trivial) ms trivial h
    intro ms1 _ h1 p hp
    have : p.1 < c.v ∧ p.2 < c.h := by
      unfold positions at hp
      split at hp
      · simp only [List.mem_flatMap, List.mem_map, List.mem_range] at hp
        obtain ⟨v, hv, u, hu, rfl⟩ := hp
        exact ⟨hv, hu⟩
      · simp only [List.mem_cons, List.not_mem_nil, or_false] at hp
        subst hp
        exact ⟨hpos.2, hpos.1⟩
    exact oneBlock_mild i j k c c0 dt ac ms1 p h1 e0 e1 e2 ha hj this.1 this.2
  · exact ⟨by simp, by simp, by simp, by simp, by simp⟩

theorem Stays.some {d0 : Hdr} {cfg : Cfg} {ms : MState} (hs : d0.seen = true) (hn : d0.comps ≠ []) (h : Stays d0 cfg ms) :
    ms.d.comps.length = d0.comps.length ∧ ∀ k ∈ ms.d.zorder, k < ms.d.comps.length := by
  have e := congrArg List.length (h.sound.2.2.2.2.2 hs).2
  rw [List.length_map, List.length_map] at e
  refine ⟨e, fun k hk => ?_⟩
  have := h.sound.2.2.1 k hk
  have hp := List.length_pos_iff.2 hn
  omega

theorem oneMcu_mild {d0 : Hdr} {cfg : Cfg} (hs : d0.seen = true) (hn : d0.comps ≠ []) (i j : Nat) (ms : MState) (h : Stays d0 cfg ms)
    (hj : j < cfg.mcuX) : Halted d0 cfg ms (oneMcu cfg i j ms) := by
  unfold oneMcu
  refine foldlM_halted _ (fun m => m.d = ms.d) _ ?_ ?_ ms rfl h
  · intro ms1 e h1 k hk
    refine oneComp_mild hs i j k ms1 h1 ?_ hj
    rw [e]
    exact (h.some hs hn).2 k (List.mem_of_mem_take hk)
  · intro ms1 e k _ ms2 h2
    rw [oneComp_d h2, e]

/-! ## Markers -/

theorem seekMarker_le (s : Bytes) : ∀ b m r, seekMarker b s = some (m, r) → r.length ≤ s.length := by
  induction s with
  | nil => intro b m r h; cases b <;> cases h
  | cons a s ih =>
    intro b m r h
    rw [List.length_cons]
    cases b with
    | false =>
      have := ih _ _ _ h
      omega
    | true =>
      rw [seekMarker] at h
      split at h
      · have := ih _ _ _ h; omega
      · split at h
        · cases h; omega
        · have := ih _ _ _ h; omega

theorem getMarker_le (s : Bs) : (getMarker s).2.rest.length ≤ s.rest.length := by
  unfold getMarker
  split
  · exact Nat.le_refl _
  · split
    · rename_i m r e
      exact seekMarker_le _ _ _ _ e
    · exact Nat.zero_le _

theorem handleRst_mild {d0 : Hdr} {cfg : Cfg} (ms : MState) (h : Stays d0 cfg ms) : Mild cfg.all (After d0 cfg ms) (handleRst ms) := by
  have hw : cfg.all = true → Roomy d0 cfg (ms.work.map fun w => { w with pred := 0 }) := by
    intro hall k w c hk hc hn
    rw [List.getElem?_map, Option.map_eq_some_iff] at hk
    obtain ⟨w0, e, rfl⟩ := hk
    exact h.roomy hall k w0 c e hc hn
  unfold handleRst
  simp only
  split
  · exact ⟨⟨h.sound, h.work, h.roomy⟩, Nat.le_refl _⟩
  · split
    · exact ⟨⟨h.sound, by simpa using h.work, hw⟩, Nat.le_refl _⟩
    · split
      · exact ⟨⟨h.sound, h.work, h.roomy⟩, Nat.le_refl _⟩
      · exact ⟨by simp, by simp, by simp, by simp, by simp⟩

theorem seekRst_after {d0 : Hdr} {cfg : Cfg} (ms : MState) (h : Stays d0 cfg ms) : After d0 cfg ms (seekRst ms) := by
  have := getMarker_le ms.bs
  unfold seekRst
  split
  · split
    · rename_i m bs e
      rw [e] at this
      exact ⟨⟨h.sound, h.work, h.roomy⟩, this⟩
    · rename_i bs e
      rw [e] at this
      exact ⟨⟨h.sound, h.work, h.roomy⟩, this⟩
  · exact ⟨h, Nat.le_refl _⟩

theorem handleRstMain_mild {d0 : Hdr} {cfg : Cfg} (ms : MState) (h : Stays d0 cfg ms) :
    Mild cfg.all (After d0 cfg ms) (handleRstMain ms) := by
  unfold handleRstMain
  have h1 := refill_fine ms.bs
  cases e : ms.bs.refill with
  | error e' =>
    rw [e] at h1
    exact ⟨by simp, by simp, by simp, fun q => (show e' ≠ .panic from h1) (by simpa using q), by simp⟩
  | ok bs =>
    rw [e] at h1
    have h2 : After d0 cfg ms { ms with bs := bs } := ⟨⟨h.sound, h.work, h.roomy⟩, h1⟩
    have h3 := seekRst_after _ h2.1
    exact (handleRst_mild _ h3.1).mono fun m hm => (h2.trans h3).trans hm

theorem parseIn_mild {d0 : Hdr} {cfg : Cfg} (o : HdrOpts) (m : UInt8) (ms : MState) (h : Stays d0 cfg ms) :
    Mild cfg.all (After d0 cfg ms) (parseIn o m ms) := by
  unfold parseIn
  have h1 := marker_fine o m.toNat d0 ms.d ms.bs.rest h.sound
  split
  · rename_i e
    rw [e] at h1
    rcases h1 with h1 | h1 <;> cases h1
  · rename_i e' _ e
    rw [e] at h1
    rcases h1 with rfl | rfl <;> exact ⟨by simp, by simp, by simp, by simp, by simp⟩
  · rename_i d r e
    rw [e] at h1
    exact ⟨⟨h1.1, h.work, h.roomy⟩, h1.2⟩

theorem parseSos_mild {d0 : Hdr} {cfg : Cfg} (o : HdrOpts) (ms : MState) (h : Stays d0 cfg ms) :
    Mild cfg.all (fun m => After d0 cfg ms m ∧ m.bs.rest.length < ms.bs.rest.length) (parseIn o 0xDA ms) := by
  have e0 : parseMarker o (0xDA : UInt8).toNat ms.d ms.bs.rest = parseSos ms.d ms.bs.rest := rfl
  unfold parseIn
  have h1 := sos_some d0 ms.d ms.bs.rest h.sound
  rw [e0]
  split
  · rename_i e
    rw [e] at h1
    rcases h1 with h1 | h1 <;> cases h1
  · rename_i e' _ e
    rw [e] at h1
    rcases h1 with rfl | rfl <;> exact ⟨by simp, by simp, by simp, by simp, by simp⟩
  · rename_i d r e
    rw [e] at h1
    exact ⟨⟨⟨h1.1.1, h.work, h.roomy⟩, h1.1.2⟩, h1.2.2⟩

/-- Whether the decoder is about to read another scan. -/
def Cont.again : Cont → Bool
  | .anotherSos => true
  | _ => false

theorem checkMarker_mild {d0 : Hdr} {cfg : Cfg} (o : HdrOpts) (ms : MState) (h : Stays d0 cfg ms) :
    Mild cfg.all (fun x => After d0 cfg ms x.2 ∧ (x.1.again = true → x.2.bs.rest.length < ms.bs.rest.length)) (checkMarker o ms) := by
  unfold checkMarker
  split
  · exact ⟨⟨h, Nat.le_refl _⟩, by simp [Cont.again]⟩
  · rename_i m _
    split
    · exact ⟨⟨⟨h.sound, h.work, h.roomy⟩, Nat.le_refl _⟩, by simp [Cont.again]⟩
    · split
      · split
        · have h1 := handleRst_mild ms h
          cases e : handleRst ms with
          | error e' => rw [e] at h1; exact h1
          | ok m1 => rw [e] at h1; exact ⟨h1, by simp [Cont.again]⟩
        · exact ⟨⟨h, Nat.le_refl _⟩, by simp [Cont.again]⟩
      · split
        · rename_i em
          subst em
          have h1 := parseSos_mild o ms h
          cases e : parseIn o 0xDA ms with
          | error e' => rw [e] at h1; exact h1
          | ok m1 =>
            rw [e] at h1
            exact ⟨⟨⟨h1.1.1.sound, h1.1.1.work, h1.1.1.roomy⟩, h1.1.2⟩, fun _ => h1.2⟩
        · split
          · exact ⟨⟨⟨h.sound, h.work, h.roomy⟩, Nat.le_refl _⟩, by simp [Cont.again]⟩
          · split
            · exact ⟨by simp, by simp, by simp, by simp, by simp⟩
            · have h1 := parseIn_mild o m ms h
              cases e : parseIn o m ms with
              | error e' => rw [e] at h1; exact h1
              | ok m1 =>
                rw [e] at h1
                exact ⟨⟨⟨h1.1.sound, h1.1.work, h1.1.roomy⟩, h1.2⟩, by simp [Cont.again]⟩

theorem nextSos_mild {d0 : Hdr} {cfg : Cfg} (o : HdrOpts) (n : Nat) : ∀ ms : MState, Stays d0 cfg ms →
    Mild cfg.all (fun x => After d0 cfg ms x.2 ∧ (x.1 = true → x.2.bs.rest.length < ms.bs.rest.length)) (nextSos o n ms) := by
  induction n with
  | zero => intro ms h; exact ⟨by simp, by simp, by simp, by simp, by simp⟩
  | succ n ih =>
    intro ms h
    have hg := getMarker_le ms.bs
    rw [nextSos]
    split
    · exact ⟨by simp, by simp, by simp, by simp, by simp⟩
    · rename_i m bs e
      rw [e] at hg
      have h0 : After d0 cfg ms { ms with bs := bs } := ⟨⟨h.sound, h.work, h.roomy⟩, hg⟩
      simp only
      split
      · rename_i em
        subst em
        have h1 := parseSos_mild o _ h0.1
        cases e : parseIn o 0xDA { ms with bs := bs } with
        | error e' => rw [e] at h1; exact h1
        | ok m1 =>
          rw [e] at h1
          have h2 := h0.trans h1.1
          exact ⟨⟨⟨h2.1.sound, h2.1.work, h2.1.roomy⟩, h2.2⟩, fun _ => Nat.lt_of_lt_of_le h1.2 hg⟩
      · split
        · exact ⟨⟨⟨h.sound, h.work, h.roomy⟩, hg⟩, by simp⟩
        · split
          · have h1 := parseIn_mild o m _ h0.1
            cases e : parseIn o m { ms with bs := bs } with
            | error e' => rw [e] at h1; exact h1
            | ok m1 =>
              rw [e] at h1
              have h2 := h0.trans h1
              exact (ih m1 h2.1).mono fun x hx => ⟨h2.trans hx.1, fun q => Nat.lt_of_lt_of_le (hx.2 q) h2.2⟩
          · split
            · exact ⟨by simp, by simp, by simp, by simp, by simp⟩
            · have h1 := u16e_fine bs.rest
              cases e : u16e bs.rest with
              | error e' =>
                rw [e] at h1
                rcases h1 with rfl | rfl <;> exact ⟨by simp, by simp, by simp, by simp, by simp⟩
              | ok x =>
                obtain ⟨len, r⟩ := x
                rw [e] at h1
                replace h1 : r.length < bs.rest.length := h1
                have h2 : After d0 cfg ms { ms with bs := { bs with rest := if 2 ≤ len then r.drop (len - 2) else r } } := by
                  refine ⟨⟨h.sound, h.work, h.roomy⟩, ?_⟩
                  simp only at hg ⊢
                  split
                  · rw [List.length_drop]; omega
                  · omega
                exact (ih _ h2.1).mono fun x hx => ⟨h2.trans hx.1, fun q => Nat.lt_of_lt_of_le (hx.2 q) h2.2⟩

theorem advanceSos_mild {d0 : Hdr} {cfg : Cfg} (o : HdrOpts) (m : UInt8) (ms : MState) (h : Stays d0 cfg ms) :
    Mild cfg.all (fun x => After d0 cfg ms x.2 ∧ (x.1 = true → x.2.bs.rest.length < ms.bs.rest.length)) (advanceSos o m ms) := by
  unfold advanceSos
  have h1 := parseIn_mild o m ms h
  cases e : parseIn o m ms with
  | error e' => rw [e] at h1; exact h1
  | ok m1 =>
    rw [e] at h1
    have h2 : After d0 cfg ms { m1 with bs := m1.bs.reset } := ⟨⟨h1.1.sound, h1.1.work, h1.1.roomy⟩, h1.2⟩
    exact (nextSos_mild o 64 _ h2.1).mono fun x hx => ⟨h2.trans hx.1, fun q => Nat.lt_of_lt_of_le (hx.2 q) h2.2⟩

/-! ## The loops -/

theorem countDown_after {d0 : Hdr} {cfg : Cfg} {a ms : MState} (h : After d0 cfg a ms) : After d0 cfg a (countDown ms) := by
  obtain ⟨t, -, ht⟩ := countDown_eq ms
  rw [ht]
  exact ⟨⟨h.1.sound, h.1.work, h.1.roomy⟩, h.2⟩

theorem rowLoop_mild {d0 : Hdr} {cfg : Cfg} (hs : d0.seen = true) (hn : d0.comps ≠ []) (i n : Nat) : ∀ (j : Nat) (ms : MState),
    Stays d0 cfg ms → j + n ≤ cfg.mcuX → Halted d0 cfg ms (rowLoop cfg i n j ms) := by
  induction n with
  | zero => intro j ms h _; exact ⟨h, Nat.le_refl _⟩
  | succ n ih =>
    intro j ms h hj
    rw [rowLoop]
    have h1 := oneMcu_mild hs hn i j ms h (by omega)
    cases e : oneMcu cfg i j ms with
    | error x => rw [e] at h1; exact h1
    | ok m1 =>
      rw [e] at h1
      have h2 : After d0 cfg ms (countDown m1) := countDown_after h1
      simp only
      generalize countDown m1 = m2 at h2 ⊢
      split
      · have h3 := handleRstMain_mild _ h2.1
        cases e3 : handleRstMain m2 with
        | error e' => rw [e3] at h3; exact h3
        | ok m3 =>
          rw [e3] at h3
          exact Halted.trans (h2.trans h3) (ih _ _ h3.1 (by omega))
      · split
        · exact h2
        · exact Halted.trans h2 (ih _ _ h2.1 (by omega))

theorem decodeRow_mild {d0 : Hdr} {cfg : Cfg} (hs : d0.seen = true) (hn : d0.comps ≠ []) (i : Nat) (ms : MState) (h : Stays d0 cfg ms) :
    Mild cfg.all (fun x => After d0 cfg ms x.2 ∧ (x.1.again = true → x.2.bs.rest.length < ms.bs.rest.length)) (decodeRow cfg i ms) := by
  unfold decodeRow
  have h0 : Stays d0 cfg { ms with more := true } := ⟨h.sound, h.work, h.roomy⟩
  have h1 := rowLoop_mild hs hn i cfg.mcuX 0 _ h0 (by omega)
  split
  · rename_i e' e
    rw [e] at h1
    exact h1
  · rename_i m1 e
    rw [e] at h1
    exact ⟨h1, by simp [Cont.again]⟩
  · rename_i m1 e
    rw [e] at h1
    exact (checkMarker_mild cfg.o m1 h1.1).mono fun x hx => ⟨After.trans h1 hx.1, fun q => Nat.lt_of_lt_of_le (hx.2 q) h1.2⟩

theorem rowsLoop_mild {d0 : Hdr} {cfg : Cfg} (hs : d0.seen = true) (hn : d0.comps ≠ []) (p : Post) (n : Nat) : ∀ (i : Nat) (ms : MState)
    (ps : PState), Stays d0 cfg ms →
    Mild cfg.all (fun x => After d0 cfg ms x.2.1 ∧ (x.1 = .sos → x.2.1.bs.rest.length < ms.bs.rest.length)) (rowsLoop cfg p n i ms ps) := by
  induction n with
  | zero => intro i ms ps h; exact ⟨⟨h, Nat.le_refl _⟩, by simp⟩
  | succ n ih =>
    intro i ms ps h
    rw [rowsLoop]
    split
    · split
      · exact ⟨by simp, by simp, by simp, by simp, by simp⟩
      · exact ⟨⟨h, Nat.le_refl _⟩, by simp⟩
    · have h1 := decodeRow_mild hs hn i ms h
      cases e : decodeRow cfg i ms with
      | error e' => rw [e] at h1; exact h1
      | ok x =>
        obtain ⟨ct, m1⟩ := x
        rw [e] at h1
        obtain ⟨h1, hagain⟩ := h1
        have h2 : Mild cfg.all (fun _ => True) (if cfg.all = true then postWith p i m1.work ps else .ok ps) := by
          split
          · unfold postWith
            split
            · exact ⟨by simp, by simp, by simp, by simp, by simp⟩
            · trivial
          · trivial
        simp only
        cases e2 : (if cfg.all = true then postWith p i m1.work ps else .ok ps) with
        | error e' => rw [e2] at h2; exact h2
        | ok ps1 =>
          simp only
          cases ct with
          | ok => exact (ih _ m1 ps1 h1.1).mono fun x hx => ⟨h1.trans hx.1, fun q => Nat.lt_of_lt_of_le (hx.2 q) h1.2⟩
          | anotherSos => exact ⟨h1, fun _ => hagain rfl⟩
          | terminate => exact ⟨h1, by simp⟩
          | inter m =>
            have h3 := advanceSos_mild cfg.o m m1 h1.1
            simp only [afterRow]
            cases e3 : advanceSos cfg.o m m1 with
            | error e' => rw [e3] at h3; exact h3
            | ok y =>
              obtain ⟨b, m3⟩ := y
              rw [e3] at h3
              cases b with
              | true => exact ⟨h1.trans h3.1, fun _ => Nat.lt_of_lt_of_le (h3.2 rfl) h1.2⟩
              | false => exact ⟨h1.trans h3.1, by simp⟩

theorem sosLoop_mild {d0 : Hdr} {cfg : Cfg} (hs : d0.seen = true) (hn : d0.comps ≠ []) (p : Post) (f : Nat) : ∀ (ms : MState)
    (ps : PState), Stays d0 cfg ms → ms.bs.rest.length < f → Mild cfg.all (fun x => After d0 cfg ms x.2.1) (sosLoop cfg p f ms ps) := by
  induction f with
  | zero => intro ms ps _ h; omega
  | succ f ih =>
    intro ms ps h hf
    rw [sosLoop]
    have h1 := rowsLoop_mild hs hn p p.mcuHeight 0 ms ps h
    cases e : rowsLoop cfg p p.mcuHeight 0 ms ps with
    | error e' => rw [e] at h1; exact h1
    | ok x =>
      obtain ⟨l, m1, ps1⟩ := x
      rw [e] at h1
      cases l with
      | done => exact h1.1
      | ret => exact h1.1
      | sos =>
        have := h1.2 rfl
        simp only at this
        exact (ih m1 ps1 h1.1.1 (by omega)).mono fun x hx => h1.1.trans hx

/-! ## Setup -/

theorem divCeil_anti {w a b : Nat} (ha : 0 < a) (h : a ≤ b) : divCeil w b ≤ divCeil w a := by
  unfold divCeil
  have hb : 0 < b := by omega
  rw [Nat.div_le_iff_le_mul_add_pred hb]
  have h1 : w ≤ (w + a - 1) / a * a := by
    have := Nat.div_add_mod (w + a - 1) a
    have := Nat.mod_lt (w + a - 1) ha
    rw [Nat.mul_comm]
    omega
  have h2 : (w + a - 1) / a * a ≤ b * ((w + a - 1) / a) := by
    rw [Nat.mul_comm b]
    exact Nat.mul_le_mul_left _ h
  omega

theorem compsLoop_room (width hm vm : Nat) (y : Factor) (fs : List Factor) : ∀ (isY : Bool) (m : Nat), 1 ≤ m → m ≤ hm →
    (∀ f ∈ fs, f.h ≤ hm) → ∀ (k : Nat) (c : Comp) (f : Factor), (compsLoop width hm vm y isY m fs)[k]? = some c → fs[k]? = some f →
      c.vs = f.v ∧ ∃ n, 1 ≤ n ∧ n ≤ hm ∧ c.stride = f.h * (divCeil width (n * 8) * 8) := by
  induction fs with
  | nil => intro isY m _ _ _ k c f _ h; simp at h
  | cons g t ih =>
    intro isY m h1 hm2 hall k c f hc hf
    cases k with
    | zero =>
      rw [compsLoop, List.getElem?_cons_zero] at hc
      rw [List.getElem?_cons_zero] at hf
      cases hc
      cases hf
      have := hall g (by simp)
      exact ⟨rfl, max m g.h, by omega, by omega, rfl⟩
    | succ k =>
      rw [compsLoop, List.getElem?_cons_succ] at hc
      rw [List.getElem?_cons_succ] at hf
      have := hall g (by simp)
      exact ih false (max m g.h) (by omega) (by omega) (fun f hf => hall f (List.mem_cons_of_mem _ hf)) k c f hc hf

theorem foldl_max_le (fs : List Factor) : ∀ a, a ≤ fs.foldl (fun m f => max m f.h) a ∧
    ∀ f ∈ fs, f.h ≤ fs.foldl (fun m f => max m f.h) a := by
  induction fs with
  | nil => intro a; exact ⟨Nat.le_refl _, by simp⟩
  | cons g t ih =>
    intro a
    obtain ⟨h1, h2⟩ := ih (max a g.h)
    rw [List.foldl_cons]
    refine ⟨by omega, fun f hf => ?_⟩
    rcases List.mem_cons.1 hf with rfl | hf
    · omega
    · exact h2 f hf

theorem setupComps_get (width : Nat) (fs : List Factor) (k : Nat) (c : Comp) (f : Factor) (hc : (setupComps width fs)[k]? = some c)
    (hf : fs[k]? = some f) : c.vs = f.v ∧ mcuAcross width fs * f.h * 8 ≤ c.stride := by
  obtain ⟨m1, m2⟩ := foldl_max_le fs 1
  have key : c.vs = f.v ∧ ∃ n, 1 ≤ n ∧ n ≤ hMax fs ∧ c.stride = f.h * (divCeil width (n * 8) * 8) := by
    unfold setupComps at hc
    split at hc
    · simp at hf
    · exact compsLoop_room _ _ _ _ _ _ 1 (Nat.le_refl _) m1 m2 k c f hc hf
  obtain ⟨h1, n, n1, n2, h2⟩ := key
  refine ⟨h1, ?_⟩
  have e : mcuAcross width fs ≤ divCeil width (n * 8) := by
    unfold mcuAcross
    split
    · exact divCeil_anti (by omega) (by omega)
    · rename_i q
      have hn : n = 1 := by
        by_contra h
        exact q (.inl (by omega))
      subst hn
      unfold divCeil
      omega
  rw [h2, Nat.mul_comm _ f.h, Nat.mul_assoc]
  exact Nat.mul_le_mul_left _ (Nat.mul_le_mul_right _ e)

theorem compsLoop_length (width hm vm : Nat) (y : Factor) (fs : List Factor) : ∀ (isY : Bool) (m : Nat),
    (compsLoop width hm vm y isY m fs).length = fs.length := by
  induction fs with
  | nil => intro isY m; rfl
  | cons g t ih => intro isY m; rw [compsLoop, List.length_cons, ih, List.length_cons]

theorem setupComps_length (width : Nat) (fs : List Factor) : (setupComps width fs).length = fs.length := by
  unfold setupComps
  split
  · rfl
  · exact compsLoop_length _ _ _ _ _ _ _

theorem allSome_length {α : Type} {l : List (Option α)} {r : List α} (h : allSome l = some r) : r.length = l.length := by
  induction l generalizing r with
  | nil => cases h; rfl
  | cons a l ih =>
    cases a with
    | none => cases h
    | some a =>
      rw [allSome, Option.map_eq_some_iff] at h
      obtain ⟨t, ht, rfl⟩ := h
      rw [List.length_cons, ih ht, List.length_cons]

theorem setupWork_roomy (d0 : Hdr) (cfg : Cfg) (out : OutSpace) (qts : List (List Nat)) (y : Nat) (hq : qts.length = d0.comps.length)
    (hX : cfg.mcuX = mcuAcross d0.width (factors d0)) :
    (setupWork d0.width out (factors d0) qts cfg.all cfg.mcuX y).length = d0.comps.length ∧
      Roomy d0 cfg (setupWork d0.width out (factors d0) qts cfg.all cfg.mcuX y) := by
  have hl : (factors d0).length = d0.comps.length := by unfold factors; rw [List.length_map]
  constructor
  · unfold setupWork
    rw [List.length_mapIdx, List.length_zip, List.length_zip, setupComps_length, hq, hl]
    omega
  · intro k w c hw hc hn
    unfold setupWork at hw
    rw [List.getElem?_mapIdx, Option.map_eq_some_iff] at hw
    obtain ⟨⟨a, f, q⟩, h1, rfl⟩ := hw
    rw [List.getElem?_zip_eq_some, List.getElem?_zip_eq_some] at h1
    obtain ⟨h1, h2, -⟩ := h1
    have hf : f = ⟨c.h, c.v⟩ := by
      unfold factors at h2
      simp only [List.getElem?_map, hc, Option.map_some, Option.some.injEq] at h2
      exact h2.symm
    obtain ⟨e1, e2⟩ := setupComps_get _ _ k a f h1 h2
    simp only at hn ⊢
    rw [if_pos hn, List.length_replicate, hX, e1]
    rw [hf] at e2 ⊢
    exact ⟨e2, rfl⟩

theorem finish_mild (p : Post) (rows n : Nat) : ∀ (i : Nat) (work : List Work) (ps : PState),
    Mild false (fun _ => True) (finishRows p rows n i work ps) := by
  induction n with
  | zero => intro i work ps; trivial
  | succ n ih =>
    intro i work ps
    rw [finishRows]
    split
    · exact ⟨by simp, by simp, by simp, by simp, by simp⟩
    · unfold postWith
      cases postProcess p i _ with
      | none => exact ⟨by simp, by simp, by simp, by simp, by simp⟩
      | some ps1 => exact ih _ _ _

theorem scan_mild (avx2 : Bool) (o : HdrOpts) (out : OutSpace) (i : InSpace) (qts : List (List Nat)) (y : Nat) (d : Hdr) (s : Bytes)
    (px : List UInt8) (hs : Sound d d) (hn : d.comps ≠ []) (hq : qts.length = d.comps.length) :
    Mild (decide (d.ns = d.comps.length)) (fun _ => True) (baselineScan avx2 o out i qts y d s px) := by
  have hseen : d.seen = true := by
    by_contra q
    rw [Bool.not_eq_true] at q
    exact hn (hs.2.2.2.1 q)
  unfold baselineScan
  simp only
  obtain ⟨w1, w2⟩ := setupWork_roomy d
    { o := o, isa := chooseIdct avx2, all := decide (d.ns = d.comps.length), mcuX := mcuAcross d.width (factors d) } out qts
    (framePost avx2 i out d.width d.height (factors d)).mcuHeight hq rfl
  have h1 : Mild (decide (d.ns = d.comps.length)) _ (sosLoop
      { o := o, isa := chooseIdct avx2, all := decide (d.ns = d.comps.length), mcuX := mcuAcross d.width (factors d) }
      (framePost avx2 i out d.width d.height (factors d)) (s.length + 2)
      { d := d, bs := Bs.new s,
        work := setupWork d.width out (factors d) qts (decide (d.ns = d.comps.length)) (mcuAcross d.width (factors d))
          (framePost avx2 i out d.width d.height (factors d)).mcuHeight, more := true, tmp := fun _ _ => 0 }
      ⟨setupComps d.width (factors d), [], px⟩) :=
    sosLoop_mild hseen hn _ _ _ _ ⟨hs, w1, fun _ => w2⟩ (by show s.length < _; omega)
  split
  · rename_i e' e
    rw [e] at h1
    exact h1
  · trivial
  · rename_i ms ps e
    split
    · rename_i e' e2
      split at e2
      · cases e2
      · rename_i ha
        have := finish_mild { framePost avx2 i out d.width d.height (factors d) with mcuHeight := y } y y 0
          (ms.work.mapIdx fun k w => { w with needed := decide (k ≤ out.comps - 1 ∨ i = .ycck ∨ i = .cmyk) }) ⟨ps.comps, [], ps.done ++ ps.rest⟩
        unfold finishBaseline at e2
        rw [e2] at this
        rw [Bool.not_eq_true] at ha
        rw [ha]
        exact this
    · trivial

theorem fillTable_some (t : Nat → Option Huff) (i : Nat) (cnt syms : List Nat) (dc : Bool) (h0 : cnt.getD 0 0 = 0)
    (h1 : ∀ l : Fin 17, 1 ≤ l.val → Canon.first (fun l => cnt.getD l 0) l.val + cnt.getD l.val 0 < 2 ^ l.val)
    (h2 : Canon.before (fun l => cnt.getD l 0) 17 ≤ 256)
    (h3 : dc = true → ∀ i < Canon.before (fun l => cnt.getD l 0) 17, syms.getD i 0 ≤ 15) :
    ∃ u, fillTable t i cnt syms dc = some u ∧ (dc = false → (∀ j v, t j = some v → v.acLookup.isSome) → ∀ j v, u j = some v → v.acLookup.isSome) := by
  unfold fillTable
  cases h : t i with
  | some v => exact ⟨t, rfl, fun _ q => q⟩
  | none =>
    obtain ⟨v, hv, -, hl⟩ := new_good (fun l => cnt.getD l 0) (fun p => syms.getD p 0) dc h0
      (fun l a b => h1 ⟨l, by omega⟩ a) h2 h3
    simp only
    rw [hv]
    refine ⟨_, rfl, fun q ht j w hw => ?_⟩
    unfold upd at hw
    split at hw
    · cases hw
      obtain ⟨f, hf, -⟩ := hl q
      rw [hf]
      rfl
    · exact ht j w hw

/-- The tables for MJPEG are accepted. -/
theorem mjpeg_some (d : Hdr) (h : Sound d d) : ∃ u, fillMjpeg d = some u ∧ Sound u u ∧ u.comps = d.comps ∧ u.ns = d.ns := by
  unfold fillMjpeg
  obtain ⟨a, ha, -⟩ := fillTable_some d.dc 0 k3Counts k3Syms true rfl (by decide +kernel) (by decide +kernel) (by decide +kernel)
  obtain ⟨b, hb, -⟩ := fillTable_some a 1 k4Counts k4Syms true rfl (by decide +kernel) (by decide +kernel) (by decide +kernel)
  obtain ⟨e, he, he2⟩ := fillTable_some d.ac 0 k5Counts k5Syms false rfl (by decide +kernel) (by decide +kernel) (by simp)
  obtain ⟨f, hf, hf2⟩ := fillTable_some e 1 k6Counts k6Syms false rfl (by decide +kernel) (by decide +kernel) (by simp)
  rw [ha, Option.bind_some, hb, Option.bind_some, he, Option.bind_some, hf, Option.bind_some]
  refine ⟨_, rfl, ⟨h.1, ?_, h.2.2.1, h.2.2.2.1, h.2.2.2.2.1, fun q => ⟨q, rfl⟩⟩, rfl, rfl⟩
  exact hf2 rfl (he2 rfl h.2.1)

theorem reset_sound (i : InSpace) (d : Hdr) (h : Sound d d) : Sound { resetLuma i d with space := i } { resetLuma i d with space := i } ∧
    (resetLuma i d).comps.length = d.comps.length ∧ (resetLuma i d).ns = d.ns := by
  unfold resetLuma
  split
  · refine ⟨⟨by simpa using h.1, h.2.1, by simpa using h.2.2.1, ?_, ?_, fun q => ⟨q, rfl⟩⟩, by simp, rfl⟩
    · intro q
      have := h.2.2.2.1 q
      simp only
      rw [this]
      rfl
    · intro c hc
      simp only [List.mem_mapIdx] at hc
      obtain ⟨k, hk, rfl⟩ := hc
      split
      · exact ⟨Nat.le_refl _, Nat.le_refl _⟩
      · exact h.2.2.2.2.1 _ (List.getElem_mem _)
  · exact ⟨h, rfl, rfl⟩

theorem baseline_mild (avx2 : Bool) (o : HdrOpts) (out : OutSpace) (d : Hdr) (s : Bytes) (px : List UInt8) (h : Sound d d)
    (hn : d.comps ≠ []) : Mild (decide (d.ns = d.comps.length)) (fun _ => True) (decodeBaseline avx2 o out d s px) := by
  unfold decodeBaseline
  obtain ⟨u, hu, hu2, hu3, hu4⟩ : ∃ u, (if d.mjpeg = true then fillMjpeg d else some d) = some u ∧ Sound u u ∧ u.comps = d.comps ∧
      u.ns = d.ns := by
    split
    · exact mjpeg_some d h
    · exact ⟨d, rfl, h, rfl, rfl⟩
  rw [hu]
  split
  · exact ⟨by simp, by simp, by simp, by simp, by simp⟩
  · rename_i e _
    cases e
  · exact ⟨by simp, by simp, by simp, by simp, by simp⟩
  · rename_i i qts d' _ hq e
    cases e
    simp only
    split
    · exact ⟨by simp, by simp, by simp, by simp, by simp⟩
    · obtain ⟨r1, r2, r3⟩ := reset_sound i u hu2
      have := scan_mild avx2 o out i qts (divCeil u.height (vMax (factors u) * 8)) { resetLuma i u with space := i } s px r1 (by
        simp only
        intro q
        rw [q, hu3] at r2
        exact hn (List.eq_nil_of_length_eq_zero r2.symm)) (by
        simp only
        rw [r2, hu3, allSome_length hq, List.length_map])
      have hd : decide (d.ns = d.comps.length) = decide ((resetLuma i u).ns = (resetLuma i u).comps.length) := by
        rw [r2, r3, hu3, hu4]
      rw [hd]
      exact this

theorem jpeg_mild (avx2 : Bool) (o : HdrOpts) (out : OutSpace) (s : Bytes) :
    (∀ e, decodeJpeg avx2 o out s = .error e → e ≠ .fuel ∧ e ≠ .hdr .fuel ∧ e ≠ .hdr .panic ∧ e ≠ .bits .panic) ∧
    ((∀ d r, decodeHeaders o s = .ok (d, r) → d.ns = d.comps.length) → decodeJpeg avx2 o out s ≠ .error .panic) := by
  have h := headers_fine o s
  unfold decodeJpeg
  cases e : decodeHeaders o s with
  | error e' =>
    rw [e] at h
    rcases h with rfl | rfl <;> exact ⟨by rintro _ ⟨⟩; simp, by simp⟩
  | ok x =>
    obtain ⟨d, r⟩ := x
    rw [e] at h
    simp only
    split
    · exact ⟨by rintro _ ⟨⟩; simp, by simp⟩
    · have h1 := baseline_mild avx2 o out d r (List.replicate (d.width * d.height * out.comps) 0) h.1.1.self h.2
      cases e1 : decodeBaseline avx2 o out d r (List.replicate (d.width * d.height * out.comps) 0) with
      | ok y => exact ⟨by rintro _ ⟨⟩, by simp⟩
      | error e' =>
        rw [e1] at h1
        refine ⟨by rintro _ ⟨⟩; exact ⟨h1.1, h1.2.1, h1.2.2.1, h1.2.2.2.1⟩, fun q => ?_⟩
        have := h1.2.2.2.2 (decide_eq_true (q d r rfl))
        simpa using this

end Zune.Jpeg
