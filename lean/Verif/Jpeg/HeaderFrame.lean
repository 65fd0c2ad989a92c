import Verif.Jpeg.HeaderLemmas

/-!
# Lemmas about the frame and scan headers of JPEG
-/

namespace Zune.Jpeg

open Seg

/-! ## Frame header -/

/-- A component of the frame header as stored. -/
def ofFComp (c : FComp) : HComp := { id := c.id, h := c.h, v := c.v, tq := c.tq, td := 0, ta := 0 }

/-- Bytes of a component of the frame header. -/
def fbytes (c : FComp) : Bytes := [UInt8.ofNat c.id, UInt8.ofNat (c.h * 16 + c.v), UInt8.ofNat c.tq]

/-- What `Components::from` accepts. -/
def FOk (c : FComp) : Prop := c.id < 256 ∧ (c.h = 1 ∨ c.h = 2 ∨ c.h = 4) ∧ 1 ≤ c.v ∧ c.v ≤ 4 ∧ c.tq < 4

theorem compFrom_ok (x y z : UInt8) (pos : Nat) (c : HComp) :
    compFrom [x, y, z] pos = .ok c ↔ pos < 4 ∧ ∃ f : FComp, FOk f ∧ [x, y, z] = fbytes f ∧ c = ofFComp f := by
  unfold compFrom
  simp only [List.getElem?_cons_zero, List.getElem?_cons_succ, Option.getD_some]
  have hx := u8_lt x
  have hy := u8_lt y
  rw [ite_err, ite_err, ite_err, ite_err, ite_err, ite_err, Except.ok.injEq]
  constructor
  · rintro ⟨h1, h2, h3, h4, h5, h6, rfl⟩
    refine ⟨by omega, ⟨x.toNat, y.toNat / 16, y.toNat % 16, z.toNat⟩, ⟨hx, ?_, by simp only; omega, by simp only; omega, by simp only; omega⟩, ?_, rfl⟩
    · simp [isPow2] at h5
      simp only
      omega
    · simp [fbytes, Nat.div_add_mod']
  · rintro ⟨hp, f, ⟨a1, a2, a3, a4, a5⟩, e, rfl⟩
    simp only [fbytes, List.cons.injEq, and_true] at e
    obtain ⟨rfl, rfl, rfl⟩ := e
    rw [u8_ofNat _ a1, u8_ofNat _ (by omega : f.h * 16 + f.v < 256), u8_ofNat _ (by omega : f.tq < 256)]
    have e1 : (f.h * 16 + f.v) / 16 = f.h := by omega
    have e2 : (f.h * 16 + f.v) % 16 = f.v := by omega
    rw [e1, e2]
    refine ⟨by omega, by omega, by omega, by omega, ?_, by omega, rfl⟩
    rcases a2 with h | h | h <;> simp [h, isPow2]

theorem sofComps_iff (n : Nat) : ∀ (pos : Nat) (s r : Bytes) (cs : List HComp),
    sofComps n pos s = .ok (cs, r) ↔ (n = 0 ∨ pos + n ≤ 4) ∧ ∃ fs : List FComp, fs.length = n ∧ (∀ f ∈ fs, FOk f) ∧
      s = fs.flatMap fbytes ++ r ∧ cs = fs.map ofFComp := by
  induction n with
  | zero =>
    intro pos s r cs
    simp only [sofComps, Except.ok.injEq, Prod.mk.injEq]
    constructor
    · rintro ⟨rfl, rfl⟩
      exact ⟨Or.inl trivial, [], rfl, by simp, rfl, rfl⟩
    · rintro ⟨_, fs, h, _, rfl, rfl⟩
      obtain rfl := List.length_eq_zero_iff.1 h
      exact ⟨rfl, rfl⟩
  | succ n ih =>
    intro pos s r cs
    unfold sofComps
    constructor
    · intro h
      rw [bind_ok] at h; obtain ⟨⟨a, s1⟩, h1, h⟩ := h
      rw [bind_ok] at h; obtain ⟨c, hc, h⟩ := h
      rw [bind_ok] at h; obtain ⟨⟨cs', s2⟩, h2, h⟩ := h
      simp only [Except.ok.injEq, Prod.mk.injEq] at h
      obtain ⟨rfl, rfl⟩ := h
      obtain ⟨hl, rfl⟩ := exactly_ok.1 h1
      obtain ⟨hp, fs, e1, e2, rfl, rfl⟩ := (ih _ _ _ _).1 h2
      match a, hl with
      | [x, y, z], _ =>
        obtain ⟨hp', f, g1, g2, rfl⟩ := (compFrom_ok x y z pos c).1 hc
        refine ⟨Or.inr (by omega), f :: fs, by simp [e1], ?_, ?_, rfl⟩
        · intro q hq
          rcases List.mem_cons.1 hq with rfl | hq
          · exact g1
          · exact e2 q hq
        · rw [g2, List.flatMap_cons, List.append_assoc]
    · rintro ⟨hp, fs, e1, e2, rfl, rfl⟩
      match fs, e1 with
      | f :: fs, e1 =>
        have hf := e2 f List.mem_cons_self
        rw [List.flatMap_cons, List.append_assoc, exactly_ok.2 (⟨rfl, rfl⟩ : (fbytes f).length = 3 ∧ _)]
        simp only [Except.bind]
        rw [show compFrom (fbytes f) pos = .ok (ofFComp f) from (compFrom_ok _ _ _ pos _).2 ⟨by omega, f, hf, rfl, rfl⟩]
        simp only
        rw [(ih (pos + 1) _ r (fs.map ofFComp)).2 ⟨by omega, fs, by simpa using e1, fun q hq => e2 q (List.mem_cons_of_mem _ hq), rfl, rfl⟩]
        rfl

/-- The frame headers accepted: those of the standard with at most 4 components, no horizontal
sampling factor 3, and dimensions within the limits set by the user. -/
def FrameIn (o : HdrOpts) (f : Frame) : Prop :=
  f.Ok ∧ f.comps.length ≤ 4 ∧ (∀ c ∈ f.comps, c.h ≠ 3) ∧ f.width ≤ o.maxW ∧ f.height ≤ o.maxH

theorem frame_bytes (f : Frame) : f.bytes = 8 :: (be16 f.height ++ (be16 f.width ++ (UInt8.ofNat f.comps.length ::
    f.comps.flatMap fbytes))) := rfl

theorem fbytes_length (fs : List FComp) : (fs.flatMap fbytes).length = 3 * fs.length := by
  induction fs with
  | nil => rfl
  | cons f fs ih => rw [List.flatMap_cons, List.length_append, ih, List.length_cons]; simp [fbytes]; omega

theorem frame_length (f : Frame) : f.bytes.length = 6 + 3 * f.comps.length := by
  rw [frame_bytes]
  simp only [List.length_cons, List.length_append, be16_length, fbytes_length]
  omega

/-- The decoder after a frame header. -/
def afterF (d : Hdr) (f : Frame) : Hdr :=
  { d with height := f.height, width := f.width, ncomp := f.comps.length, comps := f.comps.map ofFComp,
           seen := true, space := sofSpace f.comps.length d.space }

theorem parseSof_iff (o : HdrOpts) (d d' : Hdr) (s r : Bytes) : parseSof o d s = .ok (d', r) ↔
    d.seen = false ∧ ∃ f : Frame, FrameIn o f ∧ s = body f.bytes ++ r ∧ d' = afterF d f := by
  constructor
  · intro h
    unfold parseSof at h
    replace h := ite_err.1 h; obtain ⟨hs, h⟩ := h
    rw [bind_ok] at h; obtain ⟨⟨len, s1⟩, h1, h⟩ := h
    rw [bind_ok] at h; obtain ⟨⟨p, s2⟩, h2, h⟩ := h
    replace h := ite_err.1 h; obtain ⟨hp, h⟩ := h
    rw [bind_ok] at h; obtain ⟨⟨hh, s3⟩, h3, h⟩ := h
    rw [bind_ok] at h; obtain ⟨⟨w, s4⟩, h4, h⟩ := h
    replace h := ite_err.1 h; obtain ⟨hw, h⟩ := h
    replace h := ite_err.1 h; obtain ⟨hmh, h⟩ := h
    replace h := ite_err.1 h; obtain ⟨hz, h⟩ := h
    rw [bind_ok] at h; obtain ⟨⟨n, s5⟩, h5, h⟩ := h
    replace h := ite_err.1 h; obtain ⟨hn, h⟩ := h
    replace h := ite_err.1 h; obtain ⟨hl, h⟩ := h
    rw [bind_ok] at h; obtain ⟨⟨cs, s6⟩, h6, h⟩ := h
    simp only [Except.ok.injEq, Prod.mk.injEq] at h
    obtain ⟨rfl, rfl⟩ := h
    obtain ⟨a1, rfl⟩ := u16e_ok.1 h1
    obtain ⟨a2, rfl⟩ := u8e_ok.1 h2
    obtain ⟨a3, rfl⟩ := u16e_ok.1 h3
    obtain ⟨a4, rfl⟩ := u16e_ok.1 h4
    obtain ⟨a5, rfl⟩ := u8e_ok.1 h5
    obtain ⟨a6, fs, rfl, e2, rfl, rfl⟩ := (sofComps_iff _ _ _ _ _).1 h6
    refine ⟨by simpa using hs, ⟨hh, w, fs⟩, ⟨⟨by simp only; omega, a3, by simp only; omega, a4, by simp only; omega, a5, ?_⟩, by simp only; omega, ?_, by simp only; omega, by simp only; omega⟩, ?_, rfl⟩
    · intro c hc
      obtain ⟨b1, b2, b3, b4, b5⟩ := e2 c hc
      exact ⟨b1, by omega, by omega, b3, b4, b5⟩
    · intro c hc
      obtain ⟨b1, b2, b3, b4, b5⟩ := e2 c hc
      omega
    · obtain rfl : p = 8 := by simpa using hp
      obtain rfl : len = 8 + 3 * fs.length := by simpa using hl
      rw [body, frame_length, frame_bytes]
      simp [show 6 + 3 * fs.length + 2 = 8 + 3 * fs.length by omega]
  · rintro ⟨hs, f, ⟨⟨b1, b2, b3, b4, b5, b6, b7⟩, c1, c2, c3, c4⟩, rfl, rfl⟩
    have hfs := frame_length f
    rw [parseSof, if_neg (by simp [hs]), body_read (by omega)]
    simp only [Except.bind]
    rw [frame_length, frame_bytes, List.cons_append, show (8 : UInt8) = UInt8.ofNat 8 from rfl, u8_cons (by omega)]
    simp only
    rw [if_neg (by simp), List.append_assoc, u16_app b2]
    simp only
    rw [List.append_assoc, u16_app b4]
    simp only
    rw [if_neg (by omega), if_neg (by omega), if_neg (by omega), List.cons_append, u8_cons b6]
    simp only
    rw [if_neg (by omega), if_neg (by simp; omega),
      (sofComps_iff _ _ _ r (f.comps.map ofFComp)).2 ⟨by omega, f.comps, rfl, ?_, rfl, rfl⟩]
    · rfl
    · intro c hc
      obtain ⟨q1, q2, q3, q4, q5, q6⟩ := b7 c hc
      have := c2 c hc
      exact ⟨q1, by omega, q4, q5, q6⟩

/-! ## Scan header -/

theorem findComp_eq (cs : List HComp) (id : Nat) : ∀ (f j : Nat), j + f = cs.length →
    findComp cs cs.length id f j = .ok (j + (cs.drop j).findIdx (fun c => c.id == id)) := by
  intro f
  induction f with
  | zero =>
    intro j h
    rw [findComp, List.drop_eq_nil_of_le (by omega)]
    rfl
  | succ f ih =>
    intro j h
    have hj : j < cs.length := by omega
    rw [findComp, if_pos hj, List.getElem?_eq_getElem hj]
    simp only
    rw [List.drop_eq_getElem_cons hj, List.findIdx_cons]
    by_cases he : cs[j].id = id
    · simp [he]
    · have hb : (cs[j].id == id) = false := by simpa using he
      rw [if_neg he, ih (j + 1) (by omega), hb, cond_false, show j + 1 + List.findIdx (fun c : HComp => c.id == id) (cs.drop (j + 1)) = j + (List.findIdx (fun c : HComp => c.id == id) (cs.drop (j + 1)) + 1) by omega]

/-- Bytes of a component of the scan header. -/
def sbytes (c : SComp) : Bytes := [UInt8.ofNat c.id, UInt8.ofNat (c.td * 16 + c.ta)]

/-- A component of the frame after the scan header: the tables of the entry of its name, if any. -/
def setTabs (es : List SComp) (c : HComp) : HComp :=
  match es.find? (fun e => e.id == c.id) with
  | none => c
  | some e => { c with td := e.td, ta := e.ta }

/-- Position of the first component called `id`. -/
def compAt (cs : List HComp) (id : Nat) : Nat := cs.findIdx (fun c => c.id == id)

/-- Consecutive assignments from index `i` on. -/
def setFrom (z : List Nat) : Nat → List Nat → List Nat
  | _, [] => z
  | i, a :: l => setFrom (z.set i a) (i + 1) l

/-- Some component of the scan is not sampled one to one. -/
def sampled (cs : List HComp) (es : List SComp) : Bool :=
  es.any fun e => cs.any fun c => c.id == e.id && (decide (c.v ≠ 1) || decide (c.h ≠ 1))

theorem set_compAt (cs : List HComp) (e : SComp) (h : (cs.map (·.id)).Nodup) (c : HComp)
    (hc : cs[compAt cs e.id]? = some c) :
    cs.set (compAt cs e.id) { c with td := e.td, ta := e.ta } = cs.map (setTabs [e]) ∧
    (cs.any fun c => c.id == e.id && (decide (c.v ≠ 1) || decide (c.h ≠ 1))) = (decide (c.v ≠ 1) || decide (c.h ≠ 1)) := by
  induction cs with
  | nil => simp [compAt] at hc
  | cons x cs ih =>
    rw [List.map_cons, List.nodup_cons] at h
    unfold compAt at hc ⊢
    rw [List.findIdx_cons] at hc ⊢
    by_cases he : x.id = e.id
    · simp only [he, beq_self_eq_true, cond_true, List.getElem?_cons_zero, Option.some.injEq] at hc
      obtain rfl := hc
      simp only [he, beq_self_eq_true, cond_true, List.set_cons_zero, List.map_cons, List.any_cons, Bool.true_and]
      have hno : ∀ y ∈ cs, ¬ y.id = e.id := fun y hy hq => h.1 (by rw [he, ← hq]; exact List.mem_map_of_mem hy)
      constructor
      · congr 1
        · simp [setTabs, he]
        · refine ((List.map_id cs).symm).trans (List.map_congr_left fun y hy => ?_)
          have : ¬ e.id = y.id := fun q => hno y hy q.symm
          simp [setTabs, this]
      · have : (cs.any fun c => c.id == e.id && (decide (c.v ≠ 1) || decide (c.h ≠ 1))) = false := by
          rw [List.any_eq_false]
          intro y hy
          simp [hno y hy]
        rw [this, Bool.or_false]
    · have hb : (x.id == e.id) = false := by simpa using he
      simp only [hb, cond_false, List.getElem?_cons_succ] at hc
      obtain ⟨i1, i2⟩ := ih h.2 hc
      simp only [hb, cond_false, List.set_cons_succ, List.map_cons, List.any_cons, Bool.false_and, Bool.false_or]
      refine ⟨?_, i2⟩
      rw [show List.findIdx (fun c : HComp => c.id == e.id) cs = compAt cs e.id from rfl, i1]
      have : ¬ e.id = x.id := fun q => he q.symm
      simp [setTabs, this]

theorem setTabs_id (es : List SComp) (c : HComp) : (setTabs es c).id = c.id ∧ (setTabs es c).h = c.h ∧ (setTabs es c).v = c.v := by
  unfold setTabs
  split <;> simp

theorem ids_setTabs (es : List SComp) (cs : List HComp) : (cs.map (setTabs es)).map (·.id) = cs.map (·.id) := by
  rw [List.map_map]
  exact List.map_congr_left fun c _ => (setTabs_id es c).1

theorem compAt_setTabs (es : List SComp) (cs : List HComp) (id : Nat) : compAt (cs.map (setTabs es)) id = compAt cs id := by
  unfold compAt
  rw [List.findIdx_map]
  congr 1
  funext c
  simp [(setTabs_id es c).1]

theorem sampled_setTabs (es fs : List SComp) (cs : List HComp) : sampled (cs.map (setTabs es)) fs = sampled cs fs := by
  unfold sampled
  congr 1
  funext e
  rw [List.any_map]
  congr 1
  funext c
  simp [(setTabs_id es c).1, (setTabs_id es c).2.1, (setTabs_id es c).2.2]

theorem setTabs_cons (e : SComp) (es : List SComp) (h : e.id ∉ es.map (·.id)) (c : HComp) :
    setTabs es (setTabs [e] c) = setTabs (e :: es) c := by
  by_cases he : e.id = c.id
  · have h1 : setTabs [e] c = { c with td := e.td, ta := e.ta } := by simp [setTabs, he]
    have h2 : setTabs (e :: es) c = { c with td := e.td, ta := e.ta } := by simp [setTabs, he]
    have h3 : es.find? (fun x => x.id == c.id) = none := by
      rw [List.find?_eq_none]
      intro x hx hq
      apply h
      rw [he]
      have : x.id = c.id := by simpa using hq
      rw [← this]
      exact List.mem_map_of_mem hx
    rw [h1, h2]
    simp [setTabs, h3]
  · have h1 : setTabs [e] c = c := by simp [setTabs, he]
    rw [h1]
    simp [setTabs, he]

theorem compAt_lt (cs : List HComp) (id : Nat) : compAt cs id < cs.length ↔ id ∈ cs.map (·.id) := by
  unfold compAt
  rw [List.findIdx_lt_length]
  simp

/-- The decoder after the components of a scan header. -/
def afterS (d : Hdr) (i : Nat) (es : List SComp) : Hdr :=
  { d with comps := d.comps.map (setTabs es), zorder := setFrom d.zorder i (es.map fun e => compAt d.comps e.id),
           sub := d.sub || sampled d.comps es }

theorem afterS_cons (d : Hdr) (i : Nat) (e : SComp) (es : List SComp) (h : e.id ∉ es.map (·.id)) (b : Bool)
    (hb : b = sampled d.comps [e]) :
    afterS { d with comps := d.comps.map (setTabs [e]), zorder := d.zorder.set i (compAt d.comps e.id), sub := d.sub || b }
      (i + 1) es = afterS d i (e :: es) := by
  subst hb
  unfold afterS
  simp only [List.map_map, List.map_cons, setFrom, compAt_setTabs, sampled_setTabs]
  congr 1
  · exact List.map_congr_left fun c _ => setTabs_cons e es h c
  · rw [Bool.or_assoc]
    congr 1
    simp [sampled]

/-- What the components of a scan header must be. -/
def SOk (cs : List HComp) (ids : List Nat) (es : List SComp) : Prop :=
  (es.map (·.id)).Nodup ∧ (∀ e ∈ es, e.id ∉ ids) ∧ ∀ e ∈ es, e.id ∈ cs.map (·.id) ∧ e.id < 256 ∧ e.td < 16 ∧ e.ta < 16

theorem sosComps_iff (n : Nat) : ∀ (i : Nat) (ids : List Nat) (d d' : Hdr) (s r : Bytes), i + n ≤ 4 →
    d.ncomp = d.comps.length → (d.comps.map (·.id)).Nodup →
    (sosComps n i ids d s = .ok (d', r) ↔ ∃ es : List SComp, es.length = n ∧ SOk d.comps ids es ∧
      s = es.flatMap sbytes ++ r ∧ d' = afterS d i es) := by
  induction n with
  | zero =>
    intro i ids d d' s r hi hn hd
    simp only [sosComps, Except.ok.injEq, Prod.mk.injEq]
    have hnil : ∀ d : Hdr, afterS d i [] = d := by
      intro d
      have h1 : d.comps.map (setTabs []) = d.comps := (List.map_congr_left fun c _ => rfl).trans (List.map_id _)
      simp [afterS, h1, setFrom, sampled]
    constructor
    · rintro ⟨rfl, rfl⟩
      exact ⟨[], rfl, ⟨by simp, by simp, by simp⟩, rfl, (hnil d).symm⟩
    · rintro ⟨es, h, _, rfl, rfl⟩
      obtain rfl := List.length_eq_zero_iff.1 h
      exact ⟨(hnil d).symm, rfl⟩
  | succ n ih =>
    intro i ids d d' s r hi hn hd
    have hfind : ∀ id, findComp d.comps d.ncomp id d.ncomp 0 = .ok (compAt d.comps id) := by
      intro id
      rw [hn, findComp_eq _ _ _ _ (by omega), Nat.zero_add, List.drop_zero]
      rfl
    have step : ∀ (id y : Nat) (c : HComp), d.comps[compAt d.comps id]? = some c →
        let e : SComp := ⟨id, y / 16 % 16, y % 16⟩
        ({ d with comps := d.comps.set (compAt d.comps id) { c with td := y / 16 % 16, ta := y % 16 },
                  zorder := d.zorder.set i (compAt d.comps id),
                  sub := d.sub || decide (c.v ≠ 1) || decide (c.h ≠ 1) } : Hdr) =
        { d with comps := d.comps.map (setTabs [e]), zorder := d.zorder.set i (compAt d.comps e.id),
                 sub := d.sub || sampled d.comps [e] } := by
      intro id y c hc e
      obtain ⟨s1, s2⟩ := set_compAt d.comps e hd c hc
      have s2' : sampled d.comps [e] = (decide (c.v ≠ 1) || decide (c.h ≠ 1)) := by
        rw [← s2]; simp [sampled]
      rw [← s1, s2', Bool.or_assoc]
    unfold sosComps
    constructor
    · intro h
      rw [bind_ok] at h; obtain ⟨⟨id, s1⟩, h1, h⟩ := h
      replace h := ite_err.1 h; obtain ⟨hid, h⟩ := h
      rw [bind_ok] at h; obtain ⟨⟨y, s2⟩, h2, h⟩ := h
      simp only [hfind] at h
      replace h := ite_err.1 h; obtain ⟨hj, h⟩ := h
      cases hc : d.comps[compAt d.comps id]? with
      | none => rw [hc] at h; simp at h
      | some c =>
        rw [hc] at h
        simp only at h
        rw [if_pos (by omega), step id y c hc] at h
        obtain ⟨a1, rfl⟩ := u8e_ok.1 h1
        obtain ⟨a2, rfl⟩ := u8e_ok.1 h2
        have hlt : compAt d.comps id < d.comps.length := (List.getElem?_eq_some_iff.1 hc).1
        obtain ⟨es, e1, ⟨o1, o2, o3⟩, rfl, rfl⟩ := (ih (i + 1) _ _ _ _ _ (by omega) (by simpa using hn)
          (by rw [ids_setTabs]; exact hd)).1 h
        have hne : id ∉ es.map (·.id) := by
          intro q
          obtain ⟨x, hx, rfl⟩ := List.mem_map.1 q
          exact o2 x hx (by simp)
        refine ⟨⟨id, y / 16 % 16, y % 16⟩ :: es, by simp [e1], ⟨?_, ?_, ?_⟩, ?_, ?_⟩
        · rw [List.map_cons, List.nodup_cons]
          exact ⟨hne, o1⟩
        · intro x hx
          rcases List.mem_cons.1 hx with rfl | hx
          · exact hid
          · exact fun q => o2 x hx (List.mem_append_left _ q)
        · intro x hx
          rcases List.mem_cons.1 hx with rfl | hx
          · exact ⟨(compAt_lt _ _).1 hlt, a1, by simp only; omega, by simp only; omega⟩
          · have := o3 x hx
            rw [ids_setTabs] at this
            exact this
        · rw [List.flatMap_cons]
          simp only [sbytes, List.cons_append, List.nil_append]
          rw [show y / 16 % 16 * 16 + y % 16 = y by omega]
        · rw [← afterS_cons d i ⟨id, y / 16 % 16, y % 16⟩ es hne _ rfl]
    · rintro ⟨es, e1, ⟨o1, o2, o3⟩, rfl, rfl⟩
      match es, e1 with
      | e :: es, e1 =>
        obtain ⟨id, td, ta⟩ := e
        obtain ⟨p1, p2, p3, p4⟩ := o3 _ List.mem_cons_self
        simp only at p1 p2 p3 p4
        have q1 := o2 _ List.mem_cons_self
        simp only at q1
        have hlt := (compAt_lt d.comps id).2 p1
        rw [List.map_cons, List.nodup_cons] at o1
        rw [List.flatMap_cons]
        simp only [sbytes, List.cons_append, List.nil_append]
        rw [u8_cons p2]
        simp only [Except.bind]
        rw [if_neg q1, u8_cons (by omega)]
        simp only
        rw [hfind]
        simp only
        rw [if_neg (by omega), List.getElem?_eq_getElem hlt]
        simp only
        rw [if_pos (by omega), step id (td * 16 + ta) _ (List.getElem?_eq_getElem hlt),
          show (td * 16 + ta) / 16 % 16 = td by omega, show (td * 16 + ta) % 16 = ta by omega,
          (ih (i + 1) _ _ (afterS d i (⟨id, td, ta⟩ :: es)) _ r (by omega) (by simpa using hn) (by rw [ids_setTabs]; exact hd)).2
            ⟨es, by simpa using e1, ⟨o1.2, ?_, ?_⟩, rfl, ?_⟩]
        · intro x hx q
          rcases List.mem_append.1 q with q | q
          · exact o2 x (List.mem_cons_of_mem _ hx) q
          · have : x.id = id := by simpa using q
            exact o1.1 (by simp only; rw [← this]; exact List.mem_map_of_mem hx)
        · intro x hx
          rw [ids_setTabs]
          exact o3 x (List.mem_cons_of_mem _ hx)
        · exact (afterS_cons d i ⟨id, td, ta⟩ es o1.1 _ rfl).symm

theorem scan_bytes (c : Scan) : c.bytes = UInt8.ofNat c.comps.length :: (c.comps.flatMap sbytes ++
    [UInt8.ofNat c.ss, UInt8.ofNat c.se, UInt8.ofNat (c.ah * 16 + c.al)]) := rfl

theorem sbytes_length (es : List SComp) : (es.flatMap sbytes).length = 2 * es.length := by
  induction es with
  | nil => rfl
  | cons f fs ih => rw [List.flatMap_cons, List.length_append, ih, List.length_cons]; simp [sbytes]; omega

theorem scan_length (c : Scan) : c.bytes.length = 4 + 2 * c.comps.length := by
  rw [scan_bytes]
  simp only [List.length_cons, List.length_append, sbytes_length, List.length_nil]
  omega

/-- The decoder after a scan header. -/
def afterScan (d : Hdr) (c : Scan) : Hdr :=
  { d with ns := c.comps.length, comps := d.comps.map (setTabs c.comps),
           zorder := setFrom d.zorder 0 (c.comps.map fun e => compAt d.comps e.id),
           sub := sampled d.comps c.comps, ss := c.ss, se := c.se, ah := c.ah, al := c.al }

theorem setFrom_eq (l : List Nat) : ∀ (z : List Nat) (i : Nat), i + l.length ≤ z.length →
    setFrom z i l = z.take i ++ (l ++ z.drop (i + l.length)) := by
  induction l with
  | nil => intro z i h; simp [setFrom]
  | cons a l ih =>
    intro z i h
    rw [List.length_cons] at h
    rw [setFrom, ih _ _ (by simp; omega), List.take_set, List.drop_set, if_pos (by omega)]
    rw [show i + (a :: l).length = i + 1 + l.length by simp; omega]
    have : (z.take (i + 1)).set i a = z.take i ++ [a] := by
      rw [List.take_add_one, List.set_append_right _ _ (by simp)]
      have : (z.take i).length = i := by simp; omega
      rw [this, Nat.sub_self, List.getElem?_eq_getElem (by omega)]
      rfl
    rw [this, List.append_assoc]
    rfl

theorem afterScan_eq (d : Hdr) (c : Scan) (h : c.comps.length ≤ d.zorder.length) : afterScan d c =
    { d with ns := c.comps.length, comps := d.comps.map fun k => match c.comps.find? (fun e => e.id == k.id) with
               | none => k
               | some e => { k with td := e.td, ta := e.ta },
             zorder := (c.comps.map fun e => d.comps.findIdx (fun k => k.id == e.id)) ++ d.zorder.drop c.comps.length,
             sub := sampled d.comps c.comps, ss := c.ss, se := c.se, ah := c.ah, al := c.al } := by
  unfold afterScan
  rw [setFrom_eq _ _ _ (by simpa using h), List.take_zero, List.nil_append, List.length_map, Nat.zero_add]
  rfl

theorem parseSos_iff (d d' : Hdr) (s r : Bytes) (hn : d.ncomp = d.comps.length) (hd : (d.comps.map (·.id)).Nodup) :
    parseSos d s = .ok (d', r) ↔ ∃ c : Scan, c.Ok (d.comps.map (·.id)) ∧ s = body c.bytes ++ r ∧ d' = afterScan d c := by
  constructor
  · intro h
    unfold parseSos at h
    rw [bind_ok] at h; obtain ⟨⟨ls, s1⟩, h1, h⟩ := h
    rw [bind_ok] at h; obtain ⟨⟨ns, s2⟩, h2, h⟩ := h
    replace h := ite_err.1 h; obtain ⟨hl, h⟩ := h
    replace h := ite_err.1 h; obtain ⟨hns, h⟩ := h
    replace h := ite_err.1 h; obtain ⟨hnc, h⟩ := h
    rw [bind_ok] at h; obtain ⟨⟨d1, s3⟩, h3, h⟩ := h
    rw [bind_ok] at h; obtain ⟨⟨ss, s4⟩, h4, h⟩ := h
    rw [bind_ok] at h; obtain ⟨⟨se, s5⟩, h5, h⟩ := h
    rw [bind_ok] at h; obtain ⟨⟨b, s6⟩, h6, h⟩ := h
    replace h := ite_err.1 h; obtain ⟨k1, h⟩ := h
    replace h := ite_err.1 h; obtain ⟨k2, h⟩ := h
    replace h := ite_err.1 h; obtain ⟨k3, h⟩ := h
    replace h := ite_err.1 h; obtain ⟨k4, h⟩ := h
    simp only [Except.ok.injEq, Prod.mk.injEq] at h
    obtain ⟨rfl, rfl⟩ := h
    obtain ⟨a1, rfl⟩ := u16e_ok.1 h1
    obtain ⟨a2, rfl⟩ := u8e_ok.1 h2
    obtain ⟨a4, rfl⟩ := u8e_ok.1 h4
    obtain ⟨a5, rfl⟩ := u8e_ok.1 h5
    obtain ⟨a6, rfl⟩ := u8e_ok.1 h6
    obtain ⟨es, rfl, ⟨o1, o2, o3⟩, rfl, rfl⟩ := (sosComps_iff ns 0 [] { d with ns := ns, sub := false } _ _ _ (by omega) hn hd).1 h3
    refine ⟨⟨es, ss, se, b / 16, b % 16⟩, ⟨by simp only; omega, by simp only; omega, o1, o3, by simp only; omega, by simp only; omega, by simp only; omega, by simp only; omega⟩, ?_, ?_⟩
    · obtain rfl : ls = 6 + 2 * es.length := by simpa using hl
      rw [body, scan_length, scan_bytes]
      simp only [show b / 16 * 16 + b % 16 = b by omega, show 4 + 2 * es.length + 2 = 6 + 2 * es.length by omega]
      simp
    · simp [afterScan, afterS]
  · rintro ⟨c, ⟨b1, b2, b3, b4, b5, b6, b7, b8⟩, rfl, rfl⟩
    have hcl := scan_length c
    have hnz : d.ncomp ≠ 0 := by
      intro hz
      rw [hz] at hn
      have : d.comps = [] := List.length_eq_zero_iff.1 hn.symm
      obtain ⟨e, he⟩ := List.exists_mem_of_length_pos (l := c.comps) (by omega)
      have := (b4 e he).1
      simp_all
    rw [parseSos, body_read (by omega)]
    simp only [Except.bind]
    rw [scan_length, scan_bytes, List.cons_append, u8_cons (by omega)]
    simp only
    rw [if_neg (by simp; omega), if_neg (by omega), if_neg hnz, List.append_assoc,
      (sosComps_iff c.comps.length 0 [] { d with ns := c.comps.length, sub := false } _ _
        ([UInt8.ofNat c.ss, UInt8.ofNat c.se, UInt8.ofNat (c.ah * 16 + c.al)] ++ r) (by omega) hn hd).2
        ⟨c.comps, rfl, ⟨b3, by simp, b4⟩, rfl, rfl⟩]
    simp only [List.cons_append, List.nil_append]
    rw [u8_cons (by omega)]
    simp only
    rw [u8_cons (by omega)]
    simp only
    rw [u8_cons (by omega)]
    simp only
    rw [if_neg (by omega), if_neg (by omega), if_neg (by omega), if_neg (by omega),
      show (c.ah * 16 + c.al) / 16 = c.ah by omega, show (c.ah * 16 + c.al) % 16 = c.al by omega]
    simp [afterScan, afterS]

end Zune.Jpeg
