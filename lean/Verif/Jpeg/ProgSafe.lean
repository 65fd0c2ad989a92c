import Verif.Jpeg.McuSafe
import Verif.Jpeg.ProgDriver

/-!
# The progressive decoder neither loops for ever nor leaves its arrays
-/

namespace Zune.Jpeg

/-! ## Sizes -/

/-- A result that satisfies `P`, or an error. -/
def Okay {α : Type} (P : α → Prop) : Hd α → Prop
  | .ok x => P x
  | .error _ => True

theorem Okay.bind {α β : Type} {P : α → Prop} {Q : β → Prop} {x : Hd α} {f : α → Hd β} (h : Okay P x)
    (hf : ∀ a, P a → Okay Q (f a)) : Okay Q (x.bind f) := by
  cases x with
  | ok a => exact hf a h
  | error e => trivial

theorem Okay.any {α β : Type} {Q : β → Prop} {x : Hd α} {f : α → Hd β} (hf : ∀ a, Okay Q (f a)) : Okay Q (x.bind f) := by
  cases x with
  | ok a => exact hf a
  | error e => trivial

theorem Okay.ite {α : Type} {P : α → Prop} {c : Prop} [Decidable c] {x y : Hd α} (hx : Okay P x) (hy : Okay P y) :
    Okay P (if c then x else y) := by
  split
  · exact hx
  · exact hy

theorem Okay.error {α : Type} {P : α → Prop} {e : HdrErr} : Okay P (.error e : Hd α) := trivial

/-- Sizes and restart interval are numbers of 16 bits. -/
def Small (d : Hdr) : Prop := d.width < 65536 ∧ d.height < 65536 ∧ d.restart < 65536

theorem u16e_small (s : Bytes) : Okay (fun x => x.1 < 65536) (u16e s) := by
  match s with
  | [] => trivial
  | [_] => trivial
  | a :: b :: s =>
    have := a.toNat_lt
    have := b.toNat_lt
    show a.toNat * 256 + b.toNat < 65536
    omega

theorem dht_small (f : Nat) : ∀ (len : Nat) (d : Hdr) (s : Bytes), Small d → Okay (fun x => Small x.1) (dhtLoop f len d s) := by
  induction f with
  | zero => intro len d s h; trivial
  | succ f ih =>
    intro len d s h
    rw [dhtLoop]
    refine .ite (.ite .error h) (.any fun x => .ite .error (.ite .error (.any fun c => .ite .error (.ite .error (.any fun v =>
      .any fun t => ih _ _ _ ?_)))))
    split <;> exact h

theorem dqt_small (f : Nat) : ∀ (len : Nat) (d : Hdr) (s : Bytes), Small d → Okay (fun x => Small x.1) (dqtLoop f len d s) := by
  induction f with
  | zero => intro len d s h; trivial
  | succ f ih =>
    intro len d s h
    rw [dqtLoop]
    exact .ite h (.any fun x => .ite .error (.any fun v => .ite .error (ih _ _ _ h)))

theorem sof_small (o : HdrOpts) (d : Hdr) (s : Bytes) (h : Small d) : Okay (fun x => Small x.1) (parseSof o d s) := by
  unfold parseSof
  refine .ite .error (.any fun len => .any fun p => .ite .error ((u16e_small _).bind fun a ha => (u16e_small _).bind fun b hb =>
    .ite .error (.ite .error (.ite .error (.any fun n => .ite .error (.ite .error (.any fun cs => ?_)))))))
  exact ⟨hb, ha, h.2.2⟩

theorem sosComps_small (n : Nat) : ∀ (i : Nat) (ids : List Nat) (d : Hdr) (s : Bytes), Small d →
    Okay (fun x => Small x.1) (sosComps n i ids d s) := by
  induction n with
  | zero => intro i ids d s h; exact h
  | succ n ih =>
    intro i ids d s h
    rw [sosComps]
    refine .any fun a => .ite .error (.any fun b => .any fun j => .ite .error ?_)
    split
    · trivial
    · exact .ite (ih _ _ _ _ h) .error

theorem sos_small (d : Hdr) (s : Bytes) (h : Small d) : Okay (fun x => Small x.1) (parseSos d s) := by
  unfold parseSos
  refine .any fun a => .any fun b => .ite .error (.ite .error (.ite .error (.bind (P := fun x => Small x.1)
    (sosComps_small _ _ _ _ _ ?_) fun x hx => ?_)))
  · exact h
  · exact .any fun a => .any fun b => .any fun c => .ite .error (.ite .error (.ite .error (.ite .error hx)))

theorem app13_small (d : Hdr) (s : Bytes) (h : Small d) : Okay (fun x => Small x.1) (parseApp13 d s) := by
  unfold parseApp13
  exact .ite .error (.any fun t => .ite (.any fun v => h) h)

theorem app14_small (d : Hdr) (s : Bytes) (h : Small d) : Okay (fun x => Small x.1) (parseApp14 d s) := by
  unfold parseApp14
  exact .ite .error (.any fun b => .ite (.ite .error (.ite h (.ite h (.ite h .error)))) h)

theorem app1_small (d : Hdr) (s : Bytes) (h : Small d) : Okay (fun x => Small x.1) (parseApp1 d s) := by
  unfold parseApp1
  exact .ite .error (.any fun t => .ite (.any fun v => h) (.any fun t => .ite (.any fun v => h) h))

theorem gain_small (d : Hdr) (n : Nat) (s : Bytes) (h : Small d) : Okay (fun x => Small x.1) (gainMap d n s) := by
  unfold gainMap
  exact .ite h (.ite (.any fun v => h) h)

theorem app2_small (d : Hdr) (s : Bytes) (h : Small d) : Okay (fun x => Small x.1) (parseApp2 d s) := by
  unfold parseApp2
  exact .ite .error (.any fun t => .ite (.any fun v => h) (.any fun t => .ite (gain_small _ _ _ h)
    (.any fun t => .ite (.any fun v => h) h)))

theorem marker_small (o : HdrOpts) (m : Nat) (d : Hdr) (s : Bytes) (h : Small d) : Okay (fun x => Small x.1) (parseMarker o m d s) := by
  unfold parseMarker
  refine .ite (sof_small o d s h) (.ite (sof_small o _ s h) (.ite ?_ (.ite (app1_small d s h) (.ite (app2_small d s h) (.ite ?_ (.ite ?_
    (.ite (sos_small d s h) (.ite .error (.ite .error (.ite ?_ (.ite (app14_small d s h) (.ite (app13_small d s h) ?_))))))))))))
  · unfold parseApp0
    exact .any fun n => .ite .error (.ite (.any fun b => h) h)
  · unfold parseDqt
    exact .any fun n => .ite .error (dqt_small _ _ _ _ h)
  · unfold parseDht
    exact .any fun n => .ite .error (dht_small _ _ _ _ h)
  · unfold parseDri
    exact .any fun n => .ite .error ((u16e_small _).bind fun r hr => ⟨h.1, h.2.1, hr⟩)
  · unfold parseOther
    exact .any fun n => .ite .error h

theorem hdrLoop_small (o : HdrOpts) (f : Nat) : ∀ (last cnt : Nat) (d : Hdr) (s : Bytes), Small d →
    Okay (fun x => Small x.1) (hdrLoop o f last cnt d s) := by
  induction f with
  | zero => intro last cnt d s h; trivial
  | succ f ih =>
    intro last cnt d s h
    rw [hdrLoop]
    refine .any fun a => .any fun b => .ite (.ite .error ((marker_small o _ _ _ h).bind fun x hx => .ite ?_ (ih _ _ _ _ hx)))
      (ih _ _ _ _ h)
    show Small (finishHdr x.1)
    unfold finishHdr
    split
    · exact hx
    · exact hx

theorem headers_small (o : HdrOpts) (s : Bytes) : Okay (fun x => Small x.1) (decodeHeaders o s) := by
  unfold decodeHeaders
  exact .any fun a => .ite .error (hdrLoop_small o _ _ _ _ _ ⟨by decide, by decide, by decide⟩)

theorem mjpeg_small {d u : Hdr} (h : fillMjpeg d = some u) (hd : Small d) : Small u := by
  unfold fillMjpeg at h
  simp only [Option.bind_eq_some_iff, Option.some.injEq] at h
  obtain ⟨a, -, b, -, c, -, e, -, rfl⟩ := h
  exact hd

theorem reset_small (i : InSpace) {d : Hdr} (h : Small d) : Small { resetLuma i d with space := i } := by
  unfold resetLuma
  split
  · exact h
  · exact h

/-! ## Blocks -/

theorem sbit_rest (s : Bs) : s.bit.2.rest = s.rest := rfl

theorem sget_rest (s : Bs) (n : Nat) : (s.get n).2.rest = s.rest := rfl

theorem progDcFirst_fine (s : Bs) (t : Huff) (bit : I16) (p : I32) :
    BFine (fun x => x.2.2.rest.length ≤ s.rest.length) (s.progDcFirst t bit p) := by
  unfold Bs.progDcFirst
  have h := decodeDc_fine s t p
  cases e : s.decodeDc t p with
  | error e' => rw [e] at h; exact h
  | ok x => rw [e] at h; exact h

theorem refill1_fine (s : Bs) : BFine (fun x => x.rest.length ≤ s.rest.length) (if s.left < 1 then s.refill else .ok s) := by
  split
  · exact refill_fine s
  · exact Nat.le_refl _

theorem progDcRefine_fine (s : Bs) (bit v : I16) : BFine (fun x => x.2.rest.length ≤ s.rest.length) (s.progDcRefine bit v) := by
  unfold Bs.progDcRefine
  have h := refill1_fine s
  cases e : (if s.left < 1 then s.refill else .ok s) with
  | error e' => rw [e] at h; exact h
  | ok x =>
    rw [e] at h
    simp only
    split
    · simp [BFine]
    · exact h

theorem firstStep_fine (t : Huff) (fast : Nat → Int) (bd : Band) (k : Nat) (s : Bs) (b : Nat → I16) :
    BFine (fun x => x.2.2.1.rest.length ≤ s.rest.length) (Bs.firstStep t fast bd k s b) := by
  unfold Bs.firstStep
  have h := refill_fine s
  cases e : s.refill with
  | error e' => rw [e] at h; exact h
  | ok s1 =>
    rw [e] at h
    have h2 := bhuff_fine s1 t
    simp only
    split
    · exact h
    · cases e2 : s1.huff t with
      | error e' => rw [e2] at h2; exact h2
      | ok x =>
        rw [e2] at h2
        simp only
        split
        · exact Nat.le_trans h2 h
        · split
          · exact Nat.le_trans h2 h
          · exact Nat.le_trans h2 h

theorem firstLoop_fine (t : Huff) (fast : Nat → Int) (bd : Band) (f : Nat) : ∀ (k : Nat) (s : Bs) (b : Nat → I16),
    BFine (fun x => x.1.rest.length ≤ s.rest.length) (Bs.firstLoop t fast bd f k s b) := by
  induction f with
  | zero => intro k s b; exact Nat.le_refl _
  | succ f ih =>
    intro k s b
    rw [Bs.firstLoop]
    have h := firstStep_fine t fast bd k s b
    cases e : Bs.firstStep t fast bd k s b with
    | error e' => rw [e] at h; exact h
    | ok x =>
      obtain ⟨go, k1, s1, b1⟩ := x
      rw [e] at h
      simp only
      split
      · have h2 := ih k1 s1 b1
        cases e2 : Bs.firstLoop t fast bd f k1 s1 b1 with
        | error e' => rw [e2] at h2; exact h2
        | ok z => rw [e2] at h2; exact Nat.le_trans h2 h
      · exact h

theorem acFirst_fine (s : Bs) (t : Huff) (bd : Band) (b : Nat → I16) (ht : t.acLookup.isSome) :
    BFine (fun x => x.1.rest.length ≤ s.rest.length) (s.acFirst t bd b) := by
  obtain ⟨fast, hf⟩ := Option.isSome_iff_exists.1 ht
  unfold Bs.acFirst
  rw [hf]
  exact firstLoop_fine t fast bd 64 _ s b

theorem advance_fine (bd : Band) (f : Nat) : ∀ (k r : Nat) (s : Bs) (b : Nat → I16),
    BFine (fun x => x.2.1.rest.length ≤ s.rest.length) (Bs.advance bd f k r s b) := by
  induction f with
  | zero => intro k r s b; exact Nat.le_refl _
  | succ f ih =>
    intro k r s b
    rw [Bs.advance]
    simp only
    split
    · have h := refill1_fine s
      cases e : (if s.left < 1 then s.refill else .ok s) with
      | error e' => rw [e] at h; exact h
      | ok s1 =>
        rw [e] at h
        simp only
        split
        · simp [BFine]
        · split
          · exact h
          · generalize (if s1.bit.1 = 1 then setAt b (zz (k % 64)) (corrected bd.bit (b (zz (k % 64)))) else b) = b1
            have h2 := ih (k + 1) r s1.bit.2 b1
            cases e2 : Bs.advance bd f (k + 1) r s1.bit.2 b1 with
            | error e' => rw [e2] at h2; exact h2
            | ok z => rw [e2] at h2; exact Nat.le_trans h2 h
    · split
      · exact Nat.le_refl _
      · split
        · exact Nat.le_refl _
        · exact ih _ _ _ _

theorem refineStep_fine (t : Huff) (bd : Band) (k : Nat) (s : Bs) (b : Nat → I16) :
    BFine (fun x => x.2.2.1.rest.length ≤ s.rest.length) (Bs.refineStep t bd k s b) := by
  unfold Bs.refineStep
  have h := refill_fine s
  cases e : s.refill with
  | error e' => rw [e] at h; exact h
  | ok s1 =>
    rw [e] at h
    have h2 := bhuff_fine s1 t
    simp only
    cases e2 : s1.huff t with
    | error e' => rw [e2] at h2; exact h2
    | ok x =>
      obtain ⟨sym, s2⟩ := x
      rw [e2] at h2
      simp only
      split
      · exact Nat.le_trans h2 h
      · split
        · simp [BFine]
        · have hr : (if sym % 16 = 0 then s2 else s2.bit.2).rest.length ≤ s.rest.length := by
            split
            · exact Nat.le_trans h2 h
            · exact Nat.le_trans h2 h
          generalize (if sym % 16 = 0 then s2 else s2.bit.2) = s3 at hr ⊢
          have h3 : BFine (fun x => x.2.1.rest.length ≤ s3.rest.length)
              (if k ≤ bd.se then Bs.advance bd 64 k (sym / 16) s3 b else .ok (k, s3, b)) := by
            split
            · exact advance_fine _ _ _ _ _ _
            · exact Nat.le_refl _
          cases e3 : (if k ≤ bd.se then Bs.advance bd 64 k (sym / 16) s3 b else .ok (k, s3, b)) with
          | error e' => rw [e3] at h3; exact h3
          | ok y => rw [e3] at h3; exact Nat.le_trans h3 hr

theorem refineLoop_fine (t : Huff) (bd : Band) (f : Nat) : ∀ (k : Nat) (s : Bs) (b : Nat → I16),
    BFine (fun x => x.2.1.rest.length ≤ s.rest.length) (Bs.refineLoop t bd f k s b) := by
  induction f with
  | zero => intro k s b; exact Nat.le_refl _
  | succ f ih =>
    intro k s b
    rw [Bs.refineLoop]
    have h := refineStep_fine t bd k s b
    cases e : Bs.refineStep t bd k s b with
    | error e' => rw [e] at h; exact h
    | ok x =>
      obtain ⟨go, k1, s1, b1⟩ := x
      rw [e] at h
      simp only
      split
      · have h2 := ih k1 s1 b1
        cases e2 : Bs.refineLoop t bd f k1 s1 b1 with
        | error e' => rw [e2] at h2; exact h2
        | ok z => rw [e2] at h2; exact Nat.le_trans h2 h
      · exact h

theorem eobLoop_fine (bd : Band) (f : Nat) : ∀ (k : Nat) (s : Bs) (b : Nat → I16),
    BFine (fun x => x.1.rest.length ≤ s.rest.length) (Bs.eobLoop bd f k s b) := by
  induction f with
  | zero => intro k s b; exact Nat.le_refl _
  | succ f ih =>
    intro k s b
    rw [Bs.eobLoop]
    split
    · simp only
      have hr : (if b (zz (k % 64)) ≠ 0#16 then s.bit.2 else s).rest.length ≤ s.rest.length := by
        split
        · exact Nat.le_refl _
        · exact Nat.le_refl _
      generalize (if b (zz (k % 64)) ≠ 0#16 then s.bit.2 else s) = s1 at hr ⊢
      generalize (if b (zz (k % 64)) ≠ 0#16 ∧ s.bit.1 = 1 then setAt b (zz (k % 64)) (corrected bd.bit (b (zz (k % 64)))) else b) = b1
      have h := refill1_fine s1
      cases e : (if s1.left < 1 then s1.refill else .ok s1) with
      | error e' => rw [e] at h; exact h
      | ok s2 =>
        rw [e] at h
        have h2 := ih (k + 1) s2 b1
        simp only
        cases e2 : Bs.eobLoop bd f (k + 1) s2 b1 with
        | error e' => rw [e2] at h2; exact h2
        | ok z => rw [e2] at h2; exact Nat.le_trans h2 (Nat.le_trans h hr)
    · exact Nat.le_refl _

theorem refineEob_fine (bd : Band) (k : Nat) (s : Bs) (b : Nat → I16) :
    BFine (fun x => x.1.rest.length ≤ s.rest.length) (Bs.refineEob bd k s b) := by
  unfold Bs.refineEob
  split
  · split
    · have h := refill_fine s
      cases e : s.refill with
      | error e' => rw [e] at h; exact h
      | ok s1 =>
        rw [e] at h
        have h2 := eobLoop_fine bd 64 k s1 b
        simp only
        cases e2 : Bs.eobLoop bd 64 k s1 b with
        | error e' => rw [e2] at h2; exact h2
        | ok z => rw [e2] at h2; exact Nat.le_trans h2 h
    · exact Nat.le_refl _
  · exact Nat.le_refl _

theorem acRefine_fine (s : Bs) (t : Huff) (bd : Band) (b : Nat → I16) :
    BFine (fun x => x.1.rest.length ≤ s.rest.length) (s.acRefine t bd b) := by
  unfold Bs.acRefine
  split
  · have h := refineLoop_fine t bd 64 bd.ss s b
    cases e : Bs.refineLoop t bd 64 bd.ss s b with
    | error e' => rw [e] at h; exact h
    | ok x =>
      obtain ⟨k1, s1, b1⟩ := x
      rw [e] at h
      have h2 := refineEob_fine bd k1 s1 b1
      simp only
      cases e2 : Bs.refineEob bd k1 s1 b1 with
      | error e' => rw [e2] at h2; exact h2
      | ok z => rw [e2] at h2; exact Nat.le_trans h2 h
  · exact refineEob_fine _ _ _ _

theorem BFine.map {α β : Type} {P : α → Prop} {Q : β → Prop} {x : Except JErr α} {g : α → β} (h : BFine P x) (hg : ∀ a, P a → Q (g a)) :
    BFine Q (x.map g) := by
  cases x with
  | ok a => exact hg a h
  | error e => exact h

theorem scanBlock_fine (p : ProgScan) (c : Nat) (pred : I32) (b : Nat → I16) (s : Bs) (h : p.ss ≠ 0 → (p.ac c).acLookup.isSome) :
    BFine (fun x => x.2.2.rest.length ≤ s.rest.length) (p.block c pred b s) := by
  unfold ProgScan.block
  split
  · exact Nat.le_refl _
  · split
    · split
      · exact (progDcRefine_fine s _ _).map fun _ h => h
      · exact (progDcFirst_fine s _ _ _).map fun _ h => h
    · split
      · exact (acRefine_fine s _ _ _).map fun _ h => h
      · exact (acFirst_fine s _ _ _ (h ‹_›)).map fun _ h => h

/-! ## Scans -/

/-- What holds at all times. -/
def Lives (d0 : Hdr) (cfg : Cfg) (st : QState) : Prop := Stays d0 cfg st.ms ∧ Small st.ms.d

/-- What stays true, with no bytes coming back. -/
def Keep (d0 : Hdr) (cfg : Cfg) (a b : QState) : Prop := Lives d0 cfg b ∧ b.ms.bs.rest.length ≤ a.ms.bs.rest.length

theorem Keep.trans {d0 : Hdr} {cfg : Cfg} {a b c : QState} (h : Keep d0 cfg a b) (h2 : Keep d0 cfg b c) : Keep d0 cfg a c :=
  ⟨h2.1, Nat.le_trans h2.2 h.2⟩

/-- The same for the loops: a result that also satisfies `P`, or an error the decoder means to report. -/
def QMild (d0 : Hdr) (cfg : Cfg) (a : QState) (P : QState → Prop) : Except (DecErr × QState) QState → Prop
  | .ok b => Keep d0 cfg a b ∧ P b
  | .error (e, b) => Calm true e ∧ Keep d0 cfg a b

theorem QMild.trans {d0 : Hdr} {cfg : Cfg} {a b : QState} {P : QState → Prop} {x : Except (DecErr × QState) QState}
    (h : Keep d0 cfg a b) (h2 : QMild d0 cfg b P x) : QMild d0 cfg a P x := by
  match x, h2 with
  | .ok _, h2 => exact ⟨h.trans h2.1, h2.2⟩
  | .error (_, _), h2 => exact ⟨h2.1, h.trans h2.2⟩

theorem QMild.mono {d0 : Hdr} {cfg : Cfg} {a : QState} {P Q : QState → Prop} {x : Except (DecErr × QState) QState}
    (h : QMild d0 cfg a P x) (hq : ∀ b, P b → Q b) : QMild d0 cfg a Q x := by
  match x, h with
  | .ok _, h => exact ⟨h.1, hq _ h.2⟩
  | .error (_, _), h => exact h

theorem progBlock_mild {d0 : Hdr} {cfg : Cfg} (one : Bool) (len : Nat → Nat) (st : QState) (a : Addr) (h : Lives d0 cfg st)
    (ha : a.1 < st.ms.d.comps.length) (hw : a.1 < st.ms.work.length) :
    QMild d0 cfg st (fun b => b.ms.d = st.ms.d ∧ b.ms.work.length = st.ms.work.length) (progBlock one len st a) := by
  have hself : Keep d0 cfg st st := ⟨h, Nat.le_refl _⟩
  unfold progBlock
  rw [List.getElem?_eq_getElem ha, List.getElem?_eq_getElem hw]
  simp only
  split
  · exact ⟨⟨⟨⟨h.1.sound, h.1.work, h.1.roomy⟩, h.2⟩, Nat.le_refl _⟩, rfl, rfl⟩
  · split
    · exact ⟨⟨by simp, by simp, by simp, by simp, by simp⟩, hself⟩
    · rename_i hlen
      split
      · exact ⟨⟨by simp, by simp, by simp, by simp, by simp⟩, hself⟩
      · rename_i t ht
        generalize hp : ({ ss := if one = true then st.ms.d.ss else 0, se := st.ms.d.se, al := st.ms.d.al, refine := decide (st.ms.d.ah ≠ 0), dc := fun _ => t, ac := fun _ => t } : ProgScan) = p
        have hf := scanBlock_fine p a.1 st.ms.work[a.1].pred (st.buf a) st.ms.bs (by
          subst hp
          intro hss
          show t.acLookup.isSome
          cases one with
          | false => simp at hss
          | true =>
            simp only [if_true] at hss
            simp only [Bool.true_eq_false, if_false] at ht
            rw [if_neg hss] at ht
            exact h.1.sound.2.1 _ _ ht)
        split
        · rename_i e
          rw [e] at hf
          exact absurd rfl hf
        · rename_i e' _ e
          rw [e] at hf
          exact ⟨⟨by simp, by simp, by simp, fun q => (show e' ≠ .panic from hf) (by simpa using q), by simp⟩, hself⟩
        · rename_i v b bs e
          rw [e] at hf
          rw [if_pos (by omega)]
          refine ⟨⟨⟨⟨h.1.sound, by simpa using h.1.work, ?_⟩, h.2⟩, hf⟩, rfl, by simp⟩
          intro hall k w c hk hc hn
          simp only at hk
          rw [List.getElem?_set] at hk
          split at hk
          · rename_i ek
            cases hk
            exact h.1.roomy hall k st.ms.work[a.1] c (by rw [← ek]; exact List.getElem?_eq_getElem hw) hc hn
          · exact h.1.roomy hall k w c hk hc hn

theorem blocks_mild {d0 : Hdr} {cfg : Cfg} (one : Bool) (len : Nat → Nat) (l : List Addr) : ∀ st : QState, Lives d0 cfg st →
    (∀ a ∈ l, a.1 < st.ms.d.comps.length ∧ a.1 < st.ms.work.length) →
    QMild d0 cfg st (fun b => b.ms.d = st.ms.d ∧ b.ms.work.length = st.ms.work.length) (l.foldlM (progBlock one len) st) := by
  induction l with
  | nil => intro st h _; exact ⟨⟨h, Nat.le_refl _⟩, rfl, rfl⟩
  | cons a l ih =>
    intro st h hl
    have h1 := progBlock_mild one len st a h (hl a (by simp)).1 (hl a (by simp)).2
    rw [List.foldlM_cons]
    show QMild d0 cfg st _ ((progBlock one len st a).bind fun s => l.foldlM (progBlock one len) s)
    cases e : progBlock one len st a with
    | error x => rw [e] at h1; exact h1
    | ok st1 =>
      rw [e] at h1
      obtain ⟨h1, e1, e2⟩ := h1
      refine QMild.trans h1 ((ih st1 h1.1 (fun b hb => ?_)).mono fun b hb => ⟨hb.1.trans e1, hb.2.trans e2⟩)
      rw [e1, e2]
      exact hl b (List.mem_cons_of_mem _ hb)

/-- The countdown has not run out, and will not before `n` more MCUs if there are no restart intervals. -/
def Counted (n : Nat) (st : QState) : Prop :=
  1 ≤ st.ms.d.todo ∧ st.ms.d.todo < 2 ^ 64 ∧ (st.ms.d.restart = 0 → n < st.ms.d.todo)

theorem handleRst_d {ms ms' : MState} (h : handleRst ms = .ok ms') : ms'.d = { ms.d with todo := ms.d.restart } ∧
    ms'.work.length = ms.work.length := by
  unfold handleRst at h
  simp only at h
  split at h
  · cases h; exact ⟨rfl, rfl⟩
  · split at h
    · cases h; exact ⟨rfl, by simp⟩
    · split at h
      · cases h; exact ⟨rfl, rfl⟩
      · cases h

theorem seekRst_d (ms : MState) : (seekRst ms).d = ms.d ∧ (seekRst ms).work = ms.work := by
  unfold seekRst
  split
  · split <;> exact ⟨rfl, rfl⟩
  · exact ⟨rfl, rfl⟩

theorem handleRstMain_d {ms ms' : MState} (h : handleRstMain ms = .ok ms') : ms'.d = { ms.d with todo := ms.d.restart } ∧
    ms'.work.length = ms.work.length := by
  unfold handleRstMain at h
  split at h
  · cases h
  · rename_i bs _
    obtain ⟨a, b⟩ := handleRst_d h
    obtain ⟨c, d⟩ := seekRst_d { ms with bs := bs }
    rw [c] at a
    rw [d] at b
    exact ⟨a, b⟩

/-- What an MCU leaves as it was. -/
def Fixed (a b : QState) : Prop :=
  b.ms.d.comps = a.ms.d.comps ∧ b.ms.work.length = a.ms.work.length

theorem countDown_todo (ms : MState) (h1 : 1 ≤ ms.d.todo) (h2 : ms.d.todo < 2 ^ 64) :
    countDown ms = { ms with d := { ms.d with todo := ms.d.todo - 1 } } := by
  have e : (ms.d.todo + 2 ^ 64 - 1) % 2 ^ 64 = ms.d.todo - 1 := by
    rw [show ms.d.todo + 2 ^ 64 - 1 = (ms.d.todo - 1) + 2 ^ 64 from by omega, Nat.add_mod_right]
    exact Nat.mod_eq_of_lt (by omega)
  unfold countDown
  rw [e]

theorem progAfter_mild {d0 : Hdr} {cfg : Cfg} (hall : cfg.all = true) (n : Nat) (st : QState) (h : Lives d0 cfg st) (hc : Counted (n + 1) st) :
    QMild d0 cfg st (fun b => Counted n b ∧ Fixed st b) (progAfter st) := by
  obtain ⟨c1, c2, c3⟩ := hc
  unfold progAfter
  rw [if_neg (by omega)]
  rw [countDown_todo st.ms c1 c2]
  simp only
  obtain ⟨t, ht2⟩ : ∃ t, t = st.ms.d.todo - 1 := ⟨_, rfl⟩
  rw [← ht2]
  have hg : Lives d0 cfg { st with ms := { st.ms with d := { st.ms.d with todo := t } } } := ⟨⟨h.1.sound, h.1.work, h.1.roomy⟩, h.2⟩
  split
  · rename_i t0
    have h1 := handleRstMain_mild _ hg.1
    split
    · rename_i e' e
      simp only at h1
      rw [e, hall] at h1
      exact ⟨h1, hg, Nat.le_refl _⟩
    · rename_i ms e
      simp only at h1
      rw [e] at h1
      obtain ⟨a, b⟩ := handleRstMain_d e
      have hr : st.ms.d.restart ≠ 0 := fun q => by have := c3 q; omega
      have hs := h.2
      refine ⟨⟨⟨h1.1, ?_⟩, h1.2⟩, ⟨?_, ?_, ?_⟩, ?_, b⟩
      · show Small ms.d
        rw [a]
        exact hs
      · show 1 ≤ ms.d.todo
        rw [a]
        exact Nat.one_le_iff_ne_zero.2 hr
      · show ms.d.todo < _
        rw [a]
        exact Nat.lt_trans hs.2.2 (by decide)
      · show ms.d.restart = 0 → _
        rw [a]
        exact fun q => absurd q hr
      · show ms.d.comps = _
        rw [a]
  · rename_i t0
    refine ⟨⟨hg, Nat.le_refl _⟩, ⟨?_, ?_, ?_⟩, rfl, rfl⟩
    · show 1 ≤ t
      omega
    · show t < _
      omega
    · intro q
      show n < t
      have := c3 q
      omega

theorem progMcu_mild {d0 : Hdr} {cfg : Cfg} (hall : cfg.all = true) (one : Bool) (len : Nat → Nat) (n : Nat) (st : QState) (l : List Addr)
    (h : Lives d0 cfg st) (hc : Counted (n + 1) st) (hl : ∀ a ∈ l, a.1 < st.ms.d.comps.length ∧ a.1 < st.ms.work.length) :
    QMild d0 cfg st (fun b => Counted n b ∧ Fixed st b) (progMcu one len st l) := by
  unfold progMcu
  have h1 := blocks_mild one len l st h hl
  cases e : l.foldlM (progBlock one len) st with
  | error x => rw [e] at h1; exact h1
  | ok st1 =>
    rw [e] at h1
    obtain ⟨h1, e1, e2⟩ := h1
    refine QMild.trans h1 ((progAfter_mild hall n st1 h1.1 ?_).mono fun b hb => ⟨hb.1, ?_, hb.2.2.trans e2⟩)
    · unfold Counted
      rw [e1]
      exact hc
    · rw [hb.2.1, e1]

theorem mcus_mild {d0 : Hdr} {cfg : Cfg} (hall : cfg.all = true) (one : Bool) (len : Nat → Nat) (L : List (List Addr)) : ∀ st : QState,
    Lives d0 cfg st → Counted L.length st → (∀ l ∈ L, ∀ a ∈ l, a.1 < st.ms.d.comps.length ∧ a.1 < st.ms.work.length) →
    QMild d0 cfg st (fun _ => True) (L.foldlM (progMcu one len) st) := by
  induction L with
  | nil => intro st h _ _; exact ⟨⟨h, Nat.le_refl _⟩, trivial⟩
  | cons l L ih =>
    intro st h hc hl
    have h1 := progMcu_mild hall one len L.length st l h hc (hl l (by simp))
    rw [List.foldlM_cons]
    show QMild d0 cfg st _ ((progMcu one len st l).bind fun s => L.foldlM (progMcu one len) s)
    cases e : progMcu one len st l with
    | error x => rw [e] at h1; exact h1
    | ok st1 =>
      rw [e] at h1
      obtain ⟨h1, h2, e1, e2⟩ := h1
      refine QMild.trans h1 (ih st1 h1.1 h2 fun m hm a ha => ?_)
      rw [e1, e2]
      exact hl m (List.mem_cons_of_mem _ hm) a ha

theorem divCeil_lt {a b : Nat} (ha : a < 65536) (hb : 0 < b) : divCeil a b < 65536 := by
  have := divCeil_anti (w := a) (a := 1) (b := b) (by omega) hb
  have e : divCeil a 1 = a := by unfold divCeil; simp
  omega

theorem flat_len {α β : Type} (l : List α) (f : α → List β) (n : Nat) (h : ∀ a, (f a).length = n) : (l.flatMap f).length = l.length * n := by
  induction l with
  | nil => simp
  | cons a l ih => rw [List.flatMap_cons, List.length_append, ih, h, List.length_cons]; ring

theorem square_lt {a b : Nat} (ha : a < 65536) (hb : b < 65536) : a * b < 2 ^ 64 - 1 :=
  Nat.lt_of_le_of_lt (Nat.mul_le_mul (Nat.le_of_lt ha) (Nat.le_of_lt hb)) (by decide)

theorem progOne_mild {d0 : Hdr} {cfg : Cfg} (hall : cfg.all = true) (len : Nat → Nat) (st : QState) (h : Lives d0 cfg st)
    (hc : ∀ n, n < 2 ^ 64 - 1 → Counted n st) : QMild d0 cfg st (fun _ => True) (progOne len st) := by
  have hself : Keep d0 cfg st st := ⟨h, Nat.le_refl _⟩
  unfold progOne
  simp only
  split
  · exact ⟨⟨by simp, by simp, by simp, by simp, by simp⟩, hself⟩
  · split
    · exact ⟨⟨by simp, by simp, by simp, by simp, by simp⟩, hself⟩
    · rename_i c w e
      have hk : st.ms.d.zorder.getD 0 0 < st.ms.d.comps.length ∧ st.ms.d.zorder.getD 0 0 < st.ms.work.length := by
        unfold oneComp? at e
        split at e
        · rename_i c' w' e1 e2
          exact ⟨(List.getElem?_eq_some_iff.1 e1).1, (List.getElem?_eq_some_iff.1 e2).1⟩
        · cases e
      refine mcus_mild hall true len _ st h (hc _ ?_) ?_
      · rw [List.length_map]
        unfold oneOrder
        rw [flat_len _ _ (oneSize st.ms.d.width st.ms.d.height (factors st.ms.d) ⟨c.h, c.v⟩).1 (fun a => by simp), List.length_range]
        unfold oneSize
        have := hMax_pos (factors st.ms.d)
        have := vMax_pos (factors st.ms.d)
        split
        · exact square_lt (divCeil_lt h.2.2.1 (by omega)) (divCeil_lt h.2.1 (by omega))
        · exact square_lt (divCeil_lt h.2.2.1 (by omega)) (divCeil_lt h.2.1 (by omega))
      · intro l hl a ha
        obtain ⟨b, hb, rfl⟩ := List.mem_map.1 hl
        rw [List.mem_singleton] at ha
        subst ha
        unfold oneOrder at hb
        simp only [List.mem_flatMap, List.mem_map] at hb
        obtain ⟨i, -, j, -, rfl⟩ := hb
        exact hk

theorem allSome_mem {α : Type} {l : List (Option α)} {r : List α} (h : allSome l = some r) : ∀ a ∈ r, some a ∈ l := by
  induction l generalizing r with
  | nil => cases h; simp
  | cons x l ih =>
    cases x with
    | none => cases h
    | some x =>
      rw [allSome, Option.map_eq_some_iff] at h
      obtain ⟨t, ht, rfl⟩ := h
      intro a ha
      rcases List.mem_cons.1 ha with rfl | ha
      · simp
      · exact List.mem_cons_of_mem _ (ih ht a ha)

theorem progSeveral_mild {d0 : Hdr} {cfg : Cfg} (hall : cfg.all = true) (len : Nat → Nat) (st : QState) (h : Lives d0 cfg st)
    (hc : ∀ n, n < 2 ^ 64 - 1 → Counted n st) : QMild d0 cfg st (fun _ => True) (progSeveral len st) := by
  have hself : Keep d0 cfg st st := ⟨h, Nat.le_refl _⟩
  unfold progSeveral
  simp only
  split
  · exact ⟨⟨by simp, by simp, by simp, by simp, by simp⟩, hself⟩
  · split
    · exact ⟨⟨by simp, by simp, by simp, by simp, by simp⟩, hself⟩
    · rename_i comps e
      split
      · refine mcus_mild hall false len _ st h (hc _ ?_) ?_
        · unfold mcuList
          rw [flat_len _ _ (divCeil st.ms.d.width (hMax (factors st.ms.d) * 8)) (fun a => by simp), List.length_range]
          have := hMax_pos (factors st.ms.d)
          have := vMax_pos (factors st.ms.d)
          exact square_lt (divCeil_lt h.2.2.1 (by omega)) (divCeil_lt h.2.1 (by omega))
        · intro l hl a ha
          unfold mcuList at hl
          simp only [List.mem_flatMap, List.mem_map] at hl
          obtain ⟨i, -, j, -, rfl⟩ := hl
          rw [List.mem_flatMap] at ha
          obtain ⟨m, hm, ha⟩ := ha
          have hmc := allSome_mem e m hm
          rw [List.mem_map] at hmc
          obtain ⟨k, -, hk⟩ := hmc
          unfold mcuComp at hk
          split at hk
          · rename_i c w e1 e2
            obtain rfl : m = _ := (Option.some.inj hk).symm
            unfold McuComp.blocks at ha
            simp only [List.mem_flatMap, List.mem_map] at ha
            obtain ⟨v, -, u, -, rfl⟩ := ha
            exact ⟨(List.getElem?_eq_some_iff.1 e1).1, (List.getElem?_eq_some_iff.1 e2).1⟩
          · cases hk
      · exact ⟨⟨by simp, by simp, by simp, by simp, by simp⟩, hself⟩

theorem progData_mild {d0 : Hdr} {cfg : Cfg} (hall : cfg.all = true) (len : Nat → Nat) (st : QState) (h : Lives d0 cfg st) :
    QMild d0 cfg st (fun _ => True) (progData len st) := by
  have hk : Keep d0 cfg st { st with ms := progReset st.ms } := by
    refine ⟨⟨⟨h.1.sound, by simpa [progReset] using h.1.work, ?_⟩, h.2⟩, Nat.le_refl _⟩
    intro ha k w c hk hc hn
    simp only [progReset] at hk
    rw [List.getElem?_map, Option.map_eq_some_iff] at hk
    obtain ⟨w0, e, rfl⟩ := hk
    exact h.1.roomy ha k w0 c e hc hn
  have hc : ∀ n, n < 2 ^ 64 - 1 → Counted n { st with ms := progReset st.ms } := by
    intro n hn
    have hr := h.2.2.2
    unfold Counted
    show 1 ≤ (if st.ms.d.restart ≠ 0 then st.ms.d.restart else 2 ^ 64 - 1) ∧ (if st.ms.d.restart ≠ 0 then st.ms.d.restart else 2 ^ 64 - 1) < 2 ^ 64 ∧
      (st.ms.d.restart = 0 → n < (if st.ms.d.restart ≠ 0 then st.ms.d.restart else 2 ^ 64 - 1))
    split
    · exact ⟨by omega, by omega, fun q => absurd q ‹_›⟩
    · exact ⟨by decide, by decide, fun _ => hn⟩
  unfold progData
  simp only
  split
  · exact ⟨⟨by simp, by simp, by simp, by simp, by simp⟩, hk⟩
  · split
    · exact QMild.trans hk (progOne_mild hall len _ hk.1 hc)
    · exact QMild.trans hk (progSeveral_mild hall len _ hk.1 hc)

/-! ## The loop over markers -/

theorem seekMarker_lt (s : Bytes) : ∀ b m r, seekMarker b s = some (m, r) → r.length < s.length := by
  induction s with
  | nil => intro b m r h; cases b <;> cases h
  | cons a s ih =>
    intro b m r h
    rw [List.length_cons]
    cases b with
    | false =>
      have := ih _ _ _ h
      omega
    | true =>
      rw [seekMarker] at h
      split at h
      · have := ih _ _ _ h; omega
      · split at h
        · cases h; omega
        · have := ih _ _ _ h; omega

theorem getMarker_lt {s bs : Bs} {m : UInt8} (h : getMarker s = (some m, bs)) (hn : s.marker = none) :
    bs.rest.length < s.rest.length ∧ bs.marker = none := by
  unfold getMarker at h
  rw [hn] at h
  simp only at h
  split at h
  · rename_i m' r e
    cases h
    exact ⟨seekMarker_lt _ _ _ _ e, rfl⟩
  · cases h

theorem parseIn_small {o : HdrOpts} {m : UInt8} {ms ms' : MState} (h : parseIn o m ms = .ok ms') (hs : Small ms.d) :
    Small ms'.d ∧ ms'.bs.marker = ms.bs.marker := by
  unfold parseIn at h
  have h1 := marker_small o m.toNat ms.d ms.bs.rest hs
  split at h
  · cases h
  · cases h
  · rename_i d r e
    cases h
    rw [e] at h1
    exact ⟨h1, rfl⟩

theorem handleRst_small {ms ms' : MState} (h : handleRst ms = .ok ms') (hs : Small ms.d) (hm : ms.bs.marker = none) :
    Small ms'.d ∧ ms'.bs.marker = none := by
  have e := (handleRst_d h).1
  refine ⟨by rw [e]; exact hs, ?_⟩
  unfold handleRst at h
  rw [hm] at h
  cases h
  exact hm

theorem progLoop_mild {d0 : Hdr} {cfg : Cfg} (hall : cfg.all = true) (o : HdrOpts) (maxScans : Nat) (len : Nat → Nat) (f : Nat) :
    ∀ (m : UInt8) (seen : Nat) (st : QState), Lives d0 cfg st → st.ms.bs.marker = none → st.ms.bs.rest.length < f →
      Mild true (Lives d0 cfg) (progLoop o maxScans len f m seen st) := by
  induction f with
  | zero => intro m seen st _ _ h; omega
  | succ f ih =>
    intro m seen st h hm hf
    rw [progLoop]
    split
    · exact h
    · split
      · rename_i em
        subst em
        have h1 := parseSos_mild o st.ms h.1
        rw [hall] at h1
        cases e : parseIn o 0xDA st.ms with
        | error e' => rw [e] at h1; exact h1
        | ok ms =>
          rw [e] at h1
          obtain ⟨h1, hlt⟩ := h1
          have hs := (parseIn_small e h.2).1
          have h2 := progData_mild hall len { st with ms := ms } ⟨h1.1, hs⟩
          simp only
          split
          · rename_i x e2
            rw [e2] at h2
            exact absurd rfl (h2.1.2.2.2.2 rfl)
          · rename_i e' st2 _ e2
            rw [e2] at h2
            split
            · exact h2.1
            · exact h2.2.1
          · rename_i st2 e2
            rw [e2] at h2
            replace h2 := h2.1
            have h3 := getMarker_le st2.ms.bs
            split
            · split
              · exact ⟨by simp, by simp, by simp, by simp, by simp⟩
              · exact ⟨⟨h2.1.1.sound, h2.1.1.work, h2.1.1.roomy⟩, h2.1.2⟩
            · rename_i m2 bs e3
              rw [e3] at h3
              split
              · exact ⟨by simp, by simp, by simp, by simp, by simp⟩
              · refine ih m2 _ _ ⟨⟨h2.1.1.sound, h2.1.1.work, h2.1.1.roomy⟩, h2.1.2⟩ rfl ?_
                show bs.rest.length < f
                have := h2.2
                simp only at h3 this
                omega
      · have h1 : Mild true (fun ms => After d0 cfg st.ms ms ∧ Small ms.d ∧ ms.bs.marker = none)
            (if isRst m = true then handleRst st.ms else parseIn o m st.ms) := by
          split
          · have h1 := handleRst_mild st.ms h.1
            rw [hall] at h1
            cases e : handleRst st.ms with
            | error e' => rw [e] at h1; exact h1
            | ok ms => rw [e] at h1; exact ⟨h1, handleRst_small e h.2 hm⟩
          · have h1 := parseIn_mild o m st.ms h.1
            rw [hall] at h1
            cases e : parseIn o m st.ms with
            | error e' => rw [e] at h1; exact h1
            | ok ms => rw [e] at h1; exact ⟨h1, (parseIn_small e h.2).1, (parseIn_small e h.2).2.trans hm⟩
        cases e : (if isRst m = true then handleRst st.ms else parseIn o m st.ms) with
        | error e' => rw [e] at h1; exact h1
        | ok ms =>
          rw [e] at h1
          obtain ⟨h1, hs, hmn⟩ := h1
          simp only
          split
          · split
            · exact ⟨by simp, by simp, by simp, by simp, by simp⟩
            · exact ⟨⟨h1.1.sound, h1.1.work, h1.1.roomy⟩, hs⟩
          · rename_i m2 bs e3
            obtain ⟨g1, g2⟩ := getMarker_lt e3 hmn
            refine ih m2 _ _ ⟨⟨h1.1.sound, h1.1.work, h1.1.roomy⟩, hs⟩ g2 ?_
            show bs.rest.length < f
            have := h1.2
            omega

theorem progScans_mild {d0 : Hdr} {cfg : Cfg} (hall : cfg.all = true) (o : HdrOpts) (maxScans : Nat) (len : Nat → Nat) (st : QState)
    (h : Lives d0 cfg st) : Mild true (Lives d0 cfg) (progScans o maxScans len st) := by
  unfold progScans
  have h2 := progData_mild hall len st h
  split
  · rename_i x e2
    rw [e2] at h2
    exact absurd rfl (h2.1.2.2.2.2 rfl)
  · rename_i e' st2 _ e2
    rw [e2] at h2
    split
    · exact h2.1
    · exact h2.2.1
  · rename_i st2 e2
    rw [e2] at h2
    replace h2 := h2.1
    split
    · exact ⟨by simp, by simp, by simp, by simp, by simp⟩
    · refine progLoop_mild hall o maxScans len _ _ _ _ ⟨⟨h2.1.1.sound, h2.1.1.work, h2.1.1.roomy⟩, h2.1.2⟩ rfl ?_
      exact Nat.lt_succ_self _

/-! ## The end of the file -/

/-- The buffers hold the row of MCUs. -/
def Fitting (f : Factor) (w : Work) : Prop := w.needed = true → w.raw.length = w.stride * f.v * 8

theorem progIdct_mild (isa : Isa) (buf : Addr → Nat → I16) (len rows i k v : Nat) (w : Work) (raw : List Int) (p : Nat × Nat)
    (hr : raw.length = w.stride * v * 8) (h1 : p.1 < v) (h2 : p.2 < w.stride / 8) :
    Mild true (fun o => o.length = raw.length) (progIdct isa buf len rows i k w raw p) := by
  unfold progIdct
  simp only
  split
  · exact ⟨by simp, by simp, by simp, by simp, by simp⟩
  · generalize hS : (isa.full (gridBlock fun j => (buf (k, (i * (len / rows) + (p.2 * 64 + p.1 * 8 * w.stride) + j) / 64)
        ((i * (len / rows) + (p.2 * 64 + p.1 * 8 * w.stride) + j) % 64)).signExtend 32 * w.qt j)).rows = S
    obtain ⟨o, a, b⟩ := storeAt_fits (X := w.stride / 8) (h := 1) (j := p.2) (p1 := p.1) (p2 := 0) S (by omega) hr h2 h1 (by omega)
    have e : p.1 * 8 * w.stride + p.2 * 8 = w.stride * (p.1 * 8) + (p.2 * 1 + 0) * 8 := by ring
    rw [e, a]
    exact b

theorem idcts_mild (isa : Isa) (buf : Addr → Nat → I16) (len rows i k v : Nat) (w : Work) (l : List (Nat × Nat))
    (hl : ∀ p ∈ l, p.1 < v ∧ p.2 < w.stride / 8) : ∀ raw : List Int, raw.length = w.stride * v * 8 →
    Mild true (fun o => o.length = raw.length) (l.foldlM (progIdct isa buf len rows i k w) raw) := by
  induction l with
  | nil => intro raw _; rfl
  | cons p l ih =>
    intro raw hr
    have h1 := progIdct_mild isa buf len rows i k v w raw p hr (hl p (by simp)).1 (hl p (by simp)).2
    rw [List.foldlM_cons]
    show Mild true _ ((progIdct isa buf len rows i k w raw p).bind fun s => l.foldlM (progIdct isa buf len rows i k w) s)
    cases e : progIdct isa buf len rows i k w raw p with
    | error x => rw [e] at h1; exact h1
    | ok r1 =>
      rw [e] at h1
      replace h1 : r1.length = raw.length := h1
      exact (ih (fun q hq => hl q (List.mem_cons_of_mem _ hq)) r1 (h1.trans hr)).mono fun o ho => ho.trans h1

theorem progRow_mild (isa : Isa) (buf : Addr → Nat → I16) (len rows i k : Nat) (f : Factor) (w : Work) (h : Fitting f w) :
    Mild true (Fitting f) (progRow isa buf len rows i k f.v w) := by
  unfold progRow
  split
  · rename_i hn
    have h1 := idcts_mild isa buf len rows i k f.v w ((List.range f.v).flatMap fun a => (List.range (w.stride / 8)).map fun b => (a, b))
      (by
        intro p hp
        simp only [List.mem_flatMap, List.mem_map, List.mem_range] at hp
        obtain ⟨a, ha, b, hb, rfl⟩ := hp
        exact ⟨ha, hb⟩) w.raw (h hn)
    split
    · rename_i e' e
      rw [e] at h1
      exact h1
    · rename_i r e
      rw [e] at h1
      intro _
      exact (show r.length = w.raw.length from h1).trans (h hn)
  · exact h

theorem progComps_mild (isa : Isa) (buf : Addr → Nat → I16) (len : Nat → Nat) (rows i : Nat) (fs : List Factor) : ∀ (k : Nat) (ws : List Work),
    (∀ x ∈ List.zip fs ws, Fitting x.1 x.2) →
    Mild true (fun ws => ∀ x ∈ List.zip fs ws, Fitting x.1 x.2) (progComps isa buf len rows i k fs ws) := by
  induction fs with
  | nil =>
    intro k ws _
    rw [progComps]
    · simp [Mild]
    · simp
  | cons f fs ih =>
    intro k ws h
    cases ws with
    | nil =>
      rw [progComps]
      · simp [Mild]
      · simp
    | cons w ws =>
      rw [progComps]
      rw [List.zip_cons_cons] at h
      have h1 := progRow_mild isa buf (len k) rows i k f w (h (f, w) (by simp))
      cases e : progRow isa buf (len k) rows i k f.v w with
      | error e' => rw [e] at h1; exact h1
      | ok w1 =>
        rw [e] at h1
        have h2 := ih (k + 1) ws (fun x hx => h x (List.mem_cons_of_mem _ hx))
        simp only
        cases e2 : progComps isa buf len rows i (k + 1) fs ws with
        | error e' => rw [e2] at h2; exact h2
        | ok ws1 =>
          rw [e2] at h2
          intro x hx
          rw [List.zip_cons_cons] at hx
          rcases List.mem_cons.1 hx with rfl | hx
          · exact h1
          · exact h2 x hx

theorem progRows_mild (isa : Isa) (p : Post) (buf : Addr → Nat → I16) (len : Nat → Nat) (fs : List Factor) (rows n : Nat) :
    ∀ (i : Nat) (ws : List Work) (ps : PState), (∀ x ∈ List.zip fs ws, Fitting x.1 x.2) →
      Mild true (fun _ => True) (progRows isa p buf len fs rows n i ws ps) := by
  induction n with
  | zero => intro i ws ps _; trivial
  | succ n ih =>
    intro i ws ps h
    rw [progRows]
    have h1 := progComps_mild isa buf len rows i fs 0 ws h
    cases e : progComps isa buf len rows i 0 fs ws with
    | error e' => rw [e] at h1; exact h1
    | ok ws1 =>
      rw [e] at h1
      simp only
      unfold postWith
      cases postProcess p i _ with
      | none => exact ⟨by simp, by simp, by simp, by simp, by simp⟩
      | some ps1 => exact ih _ _ _ h1

theorem progFinish_mild (avx2 : Bool) (out : OutSpace) (p : Post) (len : Nat → Nat) (st : QState) (px : List UInt8) :
    Mild true (fun _ => True) (progFinish avx2 out p len st px) := by
  unfold progFinish
  simp only
  have h1 := progRows_mild (chooseIdct avx2)
    { p with mcuHeight := progHeight st.ms.d.height (factors st.ms.d), conv := convOf avx2 st.ms.d.space out st.ms.d.width p.padded } st.buf len
    (factors st.ms.d) (progHeight st.ms.d.height (factors st.ms.d)) (progHeight st.ms.d.height (factors st.ms.d)) 0
    ((List.zip (factors st.ms.d) st.ms.work).mapIdx fun k x =>
      { x.2 with
        needed := progNeeded out st.ms.d.space k
        raw := if progNeeded out st.ms.d.space k then List.replicate (x.2.stride * x.1.v * 8) 0 else x.2.raw })
    ⟨setupComps st.ms.d.width (factors st.ms.d), [], px⟩ (by
      rintro ⟨f, w⟩ hx
      obtain ⟨k, hk⟩ := List.mem_iff_getElem?.1 hx
      rw [List.getElem?_zip_eq_some, List.getElem?_mapIdx, Option.map_eq_some_iff] at hk
      obtain ⟨a, ⟨f', w'⟩, b, c⟩ := hk
      rw [List.getElem?_zip_eq_some] at b
      obtain ⟨b, -⟩ := b
      rw [a] at b
      cases b
      simp only at c
      subst c
      intro hn
      simp only at hn ⊢
      rw [if_pos hn, List.length_replicate])
  split
  · rename_i e' e
    rw [e] at h1
    exact h1
  · trivial

theorem progFrame_mild (avx2 : Bool) (o : HdrOpts) (maxScans : Nat) (out : OutSpace) (i : InSpace) (qts : List (List Nat)) (d : Hdr) (s : Bytes)
    (px : List UInt8) (hs : Sound d d) (hsm : Small d) (hq : qts.length = d.comps.length) :
    Mild (decide (i.num ≤ d.comps.length)) (fun _ => True) (progFrame avx2 o maxScans out i qts d s px) := by
  have hl : (factors d).length = d.comps.length := by unfold factors; rw [List.length_map]
  unfold progFrame
  simp only
  rw [hl]
  split
  · rename_i q
    exact ⟨by simp, by simp, by simp, by simp, fun h => absurd (of_decide_eq_true h) (by omega)⟩
  · obtain ⟨w1, w2⟩ := setupWork_roomy d { o := o, isa := chooseIdct avx2, all := true, mcuX := mcuAcross d.width (factors d) } out qts
      (framePost avx2 i out d.width d.height (factors d)).mcuHeight hq rfl
    have weak : ∀ (e : DecErr) (b : Bool), Calm true e → Calm b e := fun e b h => ⟨h.1, h.2.1, h.2.2.1, h.2.2.2.1, fun _ => h.2.2.2.2 rfl⟩
    have h1 := progScans_mild (d0 := d) (cfg := { o := o, isa := chooseIdct avx2, all := true, mcuX := mcuAcross d.width (factors d) }) rfl o
      maxScans (progLen i (factors d) (mcuAcross d.width (factors d)) (framePost avx2 i out d.width d.height (factors d)).mcuHeight)
      ⟨{ d := d, bs := Bs.new s, work := setupWork d.width out (factors d) qts true (mcuAcross d.width (factors d))
          (framePost avx2 i out d.width d.height (factors d)).mcuHeight, more := true, tmp := fun _ _ => 0 }, fun _ _ => 0⟩
      ⟨⟨hs, w1, fun _ => w2⟩, hsm⟩
    split
    · rename_i e' e
      rw [e] at h1
      exact weak _ _ h1
    · rename_i st e
      have h2 := progFinish_mild avx2 out (framePost avx2 i out d.width d.height (factors d))
        (progLen i (factors d) (mcuAcross d.width (factors d)) (framePost avx2 i out d.width d.height (factors d)).mcuHeight) st px
      split
      · rename_i e' e
        rw [e] at h2
        exact weak _ _ h2
      · trivial

theorem settle_num {strict : Bool} {n : Nat} {sp i : InSpace} (h : settleSpace strict n sp = some i) (hn : 0 < n)
    (hy : sp = .ycck → 3 ≤ n) : i.num ≤ n := by
  unfold settleSpace at h
  simp only at h
  have hq : (if n = 3 ∧ sp = .cmyk then .rgb else sp) = InSpace.ycck → 3 ≤ n := by
    split
    · intro q; cases q
    · exact hy
  generalize (if n = 3 ∧ sp = .cmyk then .rgb else sp) = sp' at h hq
  split at h
  · split at h
    · rename_i e
      cases h
      exact hq e
    · split at h
      · cases h
      · cases h
        exact Nat.le_refl _
  · rename_i q
    obtain rfl := Option.some.inj h
    omega

theorem progressive_mild (avx2 : Bool) (o : HdrOpts) (maxScans : Nat) (out : OutSpace) (d : Hdr) (s : Bytes) (px : List UInt8) (h : Sound d d)
    (hsm : Small d) (hn : d.comps ≠ []) :
    Mild (decide (d.space = .ycck → 3 ≤ d.comps.length)) (fun _ => True) (decodeProgressive avx2 o maxScans out d s px) := by
  unfold decodeProgressive
  obtain ⟨u, hu, hu2, hu3, hu4⟩ : ∃ u, (if d.mjpeg = true then fillMjpeg d else some d) = some u ∧ Sound u u ∧ u.comps = d.comps ∧
      Small u := by
    split
    · obtain ⟨u, a, b, c, -⟩ := mjpeg_some d h
      exact ⟨u, a, b, c, mjpeg_small a hsm⟩
    · exact ⟨d, rfl, h, rfl, hsm⟩
  rw [hu]
  split
  · exact ⟨by simp, by simp, by simp, by simp, by simp⟩
  · rename_i e _
    cases e
  · exact ⟨by simp, by simp, by simp, by simp, by simp⟩
  · rename_i i qts d' hi hq e
    cases e
    obtain ⟨r1, r2, r3⟩ := reset_sound i u hu2
    have h1 := progFrame_mild avx2 o maxScans out i qts { resetLuma i u with space := i } s px r1 (reset_small i hu4) (by
      simp only
      rw [r2, hu3, allSome_length hq, List.length_map])
    cases e : progFrame avx2 o maxScans out i qts { resetLuma i u with space := i } s px with
    | ok y => trivial
    | error e' =>
      rw [e] at h1
      refine ⟨h1.1, h1.2.1, h1.2.2.1, h1.2.2.2.1, fun q => h1.2.2.2.2 (decide_eq_true ?_)⟩
      simp only
      rw [r2, hu3]
      exact settle_num hi (List.length_pos_iff.2 hn) (of_decide_eq_true q)

/-- The condition under which no index is outside its array. -/
def Whole (d : Hdr) : Prop := if d.prog then d.space = .ycck → 3 ≤ d.comps.length else d.ns = d.comps.length

theorem any_mild (avx2 : Bool) (o : HdrOpts) (maxScans : Nat) (out : OutSpace) (s : Bytes) :
    (∀ e, decodeAny avx2 o maxScans out s = .error e → e ≠ .fuel ∧ e ≠ .hdr .fuel ∧ e ≠ .hdr .panic ∧ e ≠ .bits .panic) ∧
    ((∀ d r, decodeHeaders o s = .ok (d, r) → Whole d) → decodeAny avx2 o maxScans out s ≠ .error .panic) := by
  have h := headers_fine o s
  have hsm := headers_small o s
  unfold decodeAny
  cases e : decodeHeaders o s with
  | error e' =>
    rw [e] at h
    rcases h with rfl | rfl <;> exact ⟨by rintro _ ⟨⟩; simp, by simp⟩
  | ok x =>
    obtain ⟨d, r⟩ := x
    rw [e] at h hsm
    simp only
    split
    · rename_i hp
      have h1 := progressive_mild avx2 o maxScans out d r (List.replicate (d.width * d.height * out.comps) 0) h.1.1.self hsm h.2
      cases e1 : decodeProgressive avx2 o maxScans out d r (List.replicate (d.width * d.height * out.comps) 0) with
      | ok y => exact ⟨by rintro _ ⟨⟩, by simp⟩
      | error e' =>
        rw [e1] at h1
        refine ⟨by rintro _ ⟨⟩; exact ⟨h1.1, h1.2.1, h1.2.2.1, h1.2.2.2.1⟩, fun q => ?_⟩
        have hw := q d r rfl
        unfold Whole at hw
        rw [if_pos hp] at hw
        have := h1.2.2.2.2 (decide_eq_true hw)
        simpa using this
    · rename_i hp
      have h1 := baseline_mild avx2 o out d r (List.replicate (d.width * d.height * out.comps) 0) h.1.1.self h.2
      cases e1 : decodeBaseline avx2 o out d r (List.replicate (d.width * d.height * out.comps) 0) with
      | ok y => exact ⟨by rintro _ ⟨⟩, by simp⟩
      | error e' =>
        rw [e1] at h1
        refine ⟨by rintro _ ⟨⟩; exact ⟨h1.1, h1.2.1, h1.2.2.1, h1.2.2.2.1⟩, fun q => ?_⟩
        have hw := q d r rfl
        unfold Whole at hw
        rw [if_neg hp] at hw
        have := h1.2.2.2.2 (decide_eq_true hw)
        simpa using this

end Zune.Jpeg
