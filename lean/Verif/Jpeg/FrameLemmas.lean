import Verif.Jpeg.PostLoop
import Verif.Jpeg.FrameModel
import Verif.Jpeg.ColorProps

/-!
# From the sampling factors to the conditions of `PostLoop`
-/

namespace Zune.Jpeg

theorem foldl_max_h (f0 : Factor) : ∀ (fs : List Factor) (m : Nat), m = f0.h → (∀ f ∈ fs, f.h ≤ f0.h) →
    fs.foldl (fun m f => max m f.h) m = f0.h
  | [], m, hm, _ => hm
  | f :: t, m, hm, h => by
    rw [List.foldl_cons]
    exact foldl_max_h f0 t _ (by have := h f List.mem_cons_self; omega) fun g hg => h g (List.mem_cons_of_mem _ hg)

theorem foldl_max_v (f0 : Factor) : ∀ (fs : List Factor) (m : Nat), m = f0.v → (∀ f ∈ fs, f.v ≤ f0.v) →
    fs.foldl (fun m f => max m f.v) m = f0.v
  | [], m, hm, _ => hm
  | f :: t, m, hm, h => by
    rw [List.foldl_cons]
    exact foldl_max_v f0 t _ (by have := h f List.mem_cons_self; omega) fun g hg => h g (List.mem_cons_of_mem _ hg)

/-- The first component has the largest factors, and each factor divides the largest. -/
structure Divides (f0 : Factor) (fs : List Factor) : Prop where
  h0 : 0 < f0.h
  v0 : 0 < f0.v
  hd : ∀ f ∈ fs, f.h ∣ f0.h
  vd : ∀ f ∈ fs, f.v ∣ f0.v

theorem Divides.hMax {f0 : Factor} {fs : List Factor} (h : Divides f0 fs) : hMax (f0 :: fs) = f0.h := by
  unfold Jpeg.hMax
  rw [List.foldl_cons]
  exact foldl_max_h f0 fs _ (by have := h.h0; omega) fun f hf => Nat.le_of_dvd h.h0 (h.hd f hf)

theorem Divides.vMax {f0 : Factor} {fs : List Factor} (h : Divides f0 fs) : vMax (f0 :: fs) = f0.v := by
  unfold Jpeg.vMax
  rw [List.foldl_cons]
  exact foldl_max_v f0 fs _ (by have := h.v0; omega) fun f hf => Nat.le_of_dvd h.v0 (h.vd f hf)

theorem divCeil_eq (a b : Nat) (hb : 0 < b) : (a + (b - 1)) / b = divCeil a b := by
  unfold divCeil
  congr 1
  omega

theorem le_divCeil (a b : Nat) (hb : 0 < b) : a ≤ b * divCeil a b := by
  unfold divCeil
  have h1 := Nat.div_add_mod (a + b - 1) b
  have h2 := Nat.mod_lt (a + b - 1) hb
  omega

theorem divCeil_pos (a b : Nat) (ha : 0 < a) (hb : 0 < b) : 0 < divCeil a b := by
  have := le_divCeil a b hb
  rcases Nat.eq_zero_or_pos (divCeil a b) with h | h
  · rw [h] at this; omega
  · exact h

theorem paddedWidth_eq (width h v : Nat) (hh : 0 < h) :
    paddedWidth width (subSampleOf h v) = divCeil width (h * 8) * (h * 8) := by
  have e : ∀ n, (width + (n * 8 - 1)) / (n * 8) * (n * 8) = (width + n * 8 - 1) / (n * 8) * (n * 8) := by
    intro n
    rcases Nat.eq_zero_or_pos n with rfl | hn
    · rfl
    · congr 2; omega
  unfold subSampleOf divCeil
  split <;> first | rfl | exact e _

theorem hf_ratioOf (hm vm : Nat) (f : Factor) : (ratioOf hm vm f).hf = hm / f.h := by
  unfold ratioOf
  split <;> simp_all [Ratio.hf]

theorem vf_ratioOf (hm vm : Nat) (f : Factor) : (ratioOf hm vm f).vf = vm / f.v := by
  unfold ratioOf
  split <;> simp_all [Ratio.vf]

theorem vert_ratioOf (hm vm : Nat) (f : Factor) (hh : 0 < hm / f.h) :
    (ratioOf hm vm f).vert ↔ vm / f.v = 2 ∧ hm / f.h ≤ 2 := by
  unfold ratioOf Ratio.vert
  generalize hm / f.h = a at *
  generalize vm / f.v = b at *
  split
  · simp
  · simp
  · simp
  · simp
  · rename_i h1 h2 h3 h4
    simp only [reduceCtorEq, or_self, false_iff]
    rintro ⟨rfl, h⟩
    have : a = 1 ∨ a = 2 := by omega
    rcases this with rfl | rfl
    · exact h3 rfl rfl
    · exact h4 rfl rfl

theorem generic_ratioOf (hm vm : Nat) (f : Factor) (hh : 0 < hm / f.h) (hv : 0 < vm / f.v) (x y : Nat)
    (h : ratioOf hm vm f = .generic x y) : ¬(hm / f.h ≤ 2 ∧ vm / f.v ≤ 2) := by
  rintro ⟨h1, h2⟩
  unfold ratioOf at h
  have e1 : hm / f.h = 1 ∨ hm / f.h = 2 := by omega
  have e2 : vm / f.v = 1 ∨ vm / f.v = 2 := by omega
  rcases e1 with e1 | e1 <;> rcases e2 with e2 | e2 <;> rw [e1, e2] at h <;> simp at h

/-- A component with its samples, in a frame whose largest factors are those of `f0`. -/
def chanOf (width : Nat) (f0 : Factor) (c : Factor × (Nat → Nat → Int)) : Chan :=
  ⟨ratioOf f0.h f0.v c.1, c.1.v, c.1.h * (divCeil width (f0.h * 8) * 8), c.2⟩

/-- The frames treated without keeping rows: no ratio V or HV.  A component with a generic ratio must have
vertical factor 1, or the largest must be 2. -/
def FlatShape (f0 f : Factor) : Prop :=
  ¬(f0.v / f.v = 2 ∧ f0.h / f.h ≤ 2) ∧ ((f0.h / f.h ≤ 2 ∧ f0.v / f.v ≤ 2) ∨ f.v = 1 ∨ f0.v = 2)

/-- The frames with vertical factor 2 and no generic ratio. -/
def TallShape (f0 f : Factor) : Prop := f0.v = 2 ∧ f0.h / f.h ≤ 2

/-- Sampling factors of a frame for which the code works. -/
structure Shape (f0 : Factor) (fs : List Factor) : Prop extends Divides f0 fs where
  kind : (∀ f ∈ fs, FlatShape f0 f) ∨ (∀ f ∈ fs, TallShape f0 f)

theorem Divides.cons {f0 : Factor} {fs : List Factor} (h : Divides f0 fs) : Divides f0 (f0 :: fs) :=
  ⟨h.h0, h.v0, fun f hf => by
    rcases List.mem_cons.1 hf with rfl | h'
    · exact Nat.dvd_refl _
    · exact h.hd f h', fun f hf => by
    rcases List.mem_cons.1 hf with rfl | h'
    · exact Nat.dvd_refl _
    · exact h.vd f h'⟩

theorem compsLoop_rel (width : Nat) (hw : 0 < width) (f0 : Factor) (y : Factor) (hy : y = f0) (h0 : 0 < f0.h) (v0 : 0 < f0.v)
    (H : Nat) (vertical : Bool) : ∀ (cs : List (Factor × (Nat → Nat → Int))) (isY : Bool) (m : Nat), max m f0.h = f0.h →
      (m = f0.h ∨ ∃ c t, cs = c :: t ∧ c.1 = f0) →
      (∀ c ∈ cs, c.1.h ∣ f0.h ∧ c.1.v ∣ f0.v) →
      (isY = true → ∃ c t, cs = c :: t ∧ c.1 = f0) → isY = decide (m ≠ f0.h ∨ isY = true) →
      (∀ c ∈ cs, c.1 = f0 ∨ FlatShape f0 c.1 ∨ TallShape f0 c.1) →
      List.Forall₂ (fun a c => Between a H 0 vertical c) (cs.map (chanOf width f0))
        (compsLoop width f0.h f0.v y isY m (cs.map (·.1)))
  | [], _, _, _, _, _, _, _, _ => .nil
  | c :: t, isY, m, hm, hfirst, hd, hY, hb, hs => by
    subst hy
    have hc := hd c List.mem_cons_self
    have hm' : max m c.1.h = y.h := by
      rcases hfirst with h | ⟨_, _, e, h⟩
      · have := Nat.le_of_dvd h0 hc.1
        omega
      · have e1 := (List.cons.inj e).1
        rw [← e1] at h
        rw [h]; exact hm
    rw [List.map_cons, List.map_cons, compsLoop, hm']
    refine .cons ⟨⟨rfl, rfl, rfl, ?_, ?_, ?_⟩, ?_, fun _ h => absurd h (by omega)⟩
      (compsLoop_rel width hw y y rfl h0 v0 H vertical t false y.h (by omega) (.inl rfl)
        (fun c hc => hd c (List.mem_cons_of_mem _ hc)) (by simp) (by simp)
        (fun c hc => hs c (List.mem_cons_of_mem _ hc)))
    · exact List.length_replicate
    · exact List.length_replicate
    · exact List.length_replicate
    · have hhp : 0 < y.h / c.1.h := Nat.div_pos (Nat.le_of_dvd h0 hc.1) (Nat.pos_of_dvd_of_pos hc.1 h0)
      have hvp : 0 < y.v / c.1.v := Nat.div_pos (Nat.le_of_dvd v0 hc.2) (Nat.pos_of_dvd_of_pos hc.2 v0)
      have key : c.1.v ≤ fixOf y isY c.1 → Room (chanOf width y c) (Comp.setup (ratioOf y.h y.v c.1) c.1.v
          (c.1.h * (divCeil width (y.h * 8) * 8)) (fixOf y isY c.1) []) := by
        intro hfix
        refine .inr (.inr ?_)
        show 8 * c.1.v * ((ratioOf y.h y.v c.1).vf * (c.1.h * (divCeil width (y.h * 8) * 8) * (ratioOf y.h y.v c.1).hf)) ≤
          (List.replicate (c.1.h * (divCeil width (y.h * 8) * 8) * (ratioOf y.h y.v c.1).sample * fixOf y isY c.1 * 8) (0 : Int)).length
        rw [List.length_replicate, sample_eq]
        generalize c.1.h * (divCeil width (y.h * 8) * 8) = W
        generalize (ratioOf y.h y.v c.1).vf = a
        generalize (ratioOf y.h y.v c.1).hf = b
        have e1 : 8 * c.1.v * (a * (W * b)) = W * (b * a) * 8 * c.1.v := by ring
        have e2 : W * (a * b) * fixOf y isY c.1 * 8 = W * (b * a) * 8 * fixOf y isY c.1 := by ring
        rw [e1, e2]
        exact Nat.mul_le_mul_left _ hfix
      have f1 : 1 ≤ fixOf y isY c.1 := by unfold fixOf; split <;> omega
      by_cases hf0 : y.h / c.1.h = 1 ∧ y.v / c.1.v = 1
      · right; left
        show ratioOf y.h y.v c.1 = .none
        unfold ratioOf
        rw [hf0.1, hf0.2]
        rfl
      · by_cases hh1 : y.h / c.1.h = 2 ∧ y.v / c.1.v = 1
        · left
          show ratioOf y.h y.v c.1 = .h
          unfold ratioOf
          rw [hh1.1, hh1.2]
          rfl
        · have hne : c.1 ≠ y := by
            intro e
            rw [e, Nat.div_self h0, Nat.div_self v0] at hf0
            exact hf0 ⟨rfl, rfl⟩
          have hnY : isY = false := by
            cases h : isY with
            | false => rfl
            | true =>
              obtain ⟨_, _, e, h⟩ := hY h
              have e1 := (List.cons.inj e).1
              rw [← e1] at h
              exact absurd h hne
          have hle2 : y.v = 2 → c.1.v ≤ fixOf y isY c.1 := by
            intro hy2
            have : c.1.v ≤ 2 := hy2 ▸ Nat.le_of_dvd v0 hc.2
            by_cases h1 : c.1.v = 1
            · omega
            · have hpos := Nat.pos_of_dvd_of_pos hc.2 v0
              have : fixOf y isY c.1 = 2 := by
                unfold fixOf
                rw [if_pos ⟨.inr hy2, hnY, .inr h1⟩]
              omega
          rcases hs c List.mem_cons_self with h | h | h
          · exact absurd h hne
          · rcases h.2 with ⟨a1, a2⟩ | h1 | h2
            · have := h.1
              omega
            · exact key (by omega)
            · exact key (hle2 h2)
          · exact key (hle2 h.1)

theorem fits_of (avx2 : Bool) (i : InSpace) (o : OutSpace) (width height : Nat) (hw : 0 < width) (f0 : Factor)
    (fs : List Factor) (hd : Divides f0 fs) (hint : f0.h ≠ 1 ∨ f0.v ≠ 1) (c : Factor × (Nat → Nat → Int))
    (hc : c.1.h ∣ f0.h ∧ c.1.v ∣ f0.v) (hs : ∀ y x, Sample (c.2 y x))
    (hv : (ratioOf f0.h f0.v c.1).vert → f0.v = 2) :
    (chanOf width f0 c).Fits (framePost avx2 i o width height (f0 :: fs)) := by
  have h0 := hd.h0
  have v0 := hd.v0
  have ch := Nat.pos_of_dvd_of_pos hc.1 h0
  have cv := Nat.pos_of_dvd_of_pos hc.2 v0
  have hhp : 0 < f0.h / c.1.h := Nat.div_pos (Nat.le_of_dvd h0 hc.1) ch
  have hvp : 0 < f0.v / c.1.v := Nat.div_pos (Nat.le_of_dvd v0 hc.2) cv
  have hdp : 0 < divCeil width (f0.h * 8) := divCeil_pos _ _ hw (by omega)
  refine ⟨?_, hs, cv, ?_, ?_, ?_, ?_, ?_⟩
  · show 2 < c.1.h * (divCeil width (f0.h * 8) * 8)
    have := Nat.le_mul_of_pos_left (divCeil width (f0.h * 8) * 8) ch
    omega
  · show c.1.v * (ratioOf f0.h f0.v c.1).vf = vMax (f0 :: fs)
    rw [vf_ratioOf, hd.vMax, Nat.mul_div_cancel' hc.2]
  · show c.1.h * (divCeil width (f0.h * 8) * 8) * (ratioOf f0.h f0.v c.1).hf =
      paddedWidth width (subSampleOf (hMax (f0 :: fs)) (vMax (f0 :: fs)))
    rw [hf_ratioOf, hd.hMax, hd.vMax, paddedWidth_eq _ _ _ h0, Nat.mul_right_comm, Nat.mul_div_cancel' hc.1]
    ring
  · intro h
    show c.1.v = 1
    have h2 := hv h
    have h3 := ((vert_ratioOf f0.h f0.v c.1 hhp).1 h).1
    have h4 := Nat.mul_div_cancel' hc.2
    rw [h3, h2] at h4
    omega
  · intro h
    show (List.replicate (if decide (hMax (f0 :: fs) ≠ 1 ∨ vMax (f0 :: fs) ≠ 1) = true then
      (setupComps width (f0 :: fs)).head?.elim 0 (·.stride) else 0) (0 : Int)).length = 2 * (c.1.h * (divCeil width (f0.h * 8) * 8))
    rw [List.length_replicate, hd.hMax, hd.vMax, if_pos (by simpa using hint)]
    unfold setupComps
    simp only [compsLoop, List.head?_cons, Option.elim_some, Comp.setup]
    have hhf := hf_ratioOf f0.h f0.v c.1
    have h' : ratioOf f0.h f0.v c.1 = .hv := h
    rw [h'] at hhf
    simp only [Ratio.hf] at hhf
    have h4 := Nat.mul_div_cancel' hc.1
    rw [← hhf] at h4
    rw [show max 1 f0.h = f0.h by omega]
    generalize divCeil width (f0.h * 8) * 8 = D
    rw [← h4]
    ring
  · show 0 < (ratioOf f0.h f0.v c.1).hf ∧ 0 < (ratioOf f0.h f0.v c.1).vf
    rw [hf_ratioOf, vf_ratioOf]
    exact ⟨hhp, hvp⟩

/-- Number of planes a colour space is stored in. -/
def InSpace.planes : InSpace → Nat
  | .luma => 1
  | .ycbcr | .rgb => 3
  | .cmyk | .ycck => 4
  | .multi n => n

/-- The output bytes of a pixel from the samples of its components; components that the colour space does
not have count for nothing. -/
def pixelAt (i : InSpace) (o : OutSpace) (vs : List Int) : Option (List UInt8) :=
  pixelOf i o (vs[0]?.getD 0) (vs[1]?.getD 0) (vs[2]?.getD 0) (vs[3]?.getD 0)

theorem colorConvert_planes (avx2 : Bool) (i : InSpace) (o : OutSpace) (width padded : Nat)
    (q : Nat → List Int) (z : List Int) (out : List UInt8) (k : Nat) (hk : i.planes = k)
    (hs : ∀ n, i = .multi n → n = 2) :
    colorConvert avx2 i o width padded (if 0 < k then q 0 else []) (if 1 < k then q 1 else [])
      (if 2 < k then q 2 else []) (if 3 < k then q 3 else []) out =
    colorConvert avx2 i o width padded (if 0 < k then q 0 else z) (if 1 < k then q 1 else z)
      (if 2 < k then q 2 else z) (if 3 < k then q 3 else z) out := by
  subst hk
  cases i with
  | multi n => have := hs n rfl; subst this; rfl
  | luma => cases o with
    | layout l => cases l <;> rfl
    | _ => rfl
  | ycbcr => cases o with
    | layout l => cases l <;> rfl
    | _ => rfl
  | rgb => cases o with
    | layout l => cases l <;> rfl
    | _ => rfl
  | cmyk => cases o with
    | layout l => cases l <;> rfl
    | _ => rfl
  | ycck => cases o with
    | layout l => cases l <;> rfl
    | _ => rfl

theorem pixelOf_multi (i : InSpace) (o : OutSpace) (a b c d : Int) (x : List UInt8)
    (h : pixelOf i o a b c d = some x) (n : Nat) (hi : i = .multi n) : n = 2 := by
  subst hi
  by_contra hn
  unfold pixelOf at h
  cases o with
  | layout l => cases l <;> simp [hn] at h
  | _ => simp [hn] at h

theorem getElem?_planes (us : List (Nat → Int)) (padded j : Nat) :
    ((us.map (plane · 0 padded))[j]?).getD [] =
      if j < us.length then plane ((us[j]?).getD fun _ => 0) 0 padded else [] := by
  rw [List.getElem?_map]
  by_cases h : j < us.length
  · rw [if_pos h, List.getElem?_eq_getElem h]; rfl
  · rw [if_neg h, List.getElem?_eq_none (by omega)]; rfl

theorem conv_line (avx2 : Bool) (i : InSpace) (o : OutSpace) (width padded : Nat)
    (hw : 0 < width) (hp : width ≤ padded) (us : List (Nat → Int)) (hk : us.length = i.planes)
    (hu : ∀ u ∈ us, ∀ x, Sample (u x))
    (hF : ∀ vs, vs.length = i.planes → (pixelAt i o vs).isSome)
    (hbr : ¬((i = .cmyk ∨ i = .ycck) ∧ o = .layout .rgba))
    (buf : List UInt8) (hb : buf.length = width * o.comps) :
    convOf avx2 i o width padded (us.map (plane · 0 padded)) buf =
      some ((List.range width).flatMap fun x => (pixelAt i o (us.map (· x))).getD []) := by
  have hs : ∀ (j x : Nat), Sample (((us[j]?).getD fun _ => 0) x) := by
    intro j x
    by_cases h : j < us.length
    · rw [List.getElem?_eq_getElem h]
      exact hu _ (List.getElem_mem h) x
    · rw [List.getElem?_eq_none (by omega)]
      exact ⟨Int.le_refl _, by show (0 : Int) ≤ 255; omega⟩
  have hmulti : ∀ n, i = .multi n → n = 2 := by
    intro n hn
    have h1 := hF (List.replicate i.planes 0) List.length_replicate
    obtain ⟨x, hx⟩ := Option.isSome_iff_exists.1 h1
    exact pixelOf_multi i o _ _ _ _ x hx n hn
  unfold convOf
  simp only [getElem?_planes]
  rw [hk, colorConvert_planes avx2 i o width padded (fun j => plane ((us[j]?).getD fun _ => 0) 0 padded)
    (plane (fun _ => 0) 0 padded) buf i.planes rfl hmulti]
  have hz : ∀ j : Nat, (if j < i.planes then plane ((us[j]?).getD fun _ => 0) 0 padded else plane (fun _ => 0) 0 padded) =
      plane ((us[j]?).getD fun _ => 0) 0 padded := by
    intro j
    split
    · rfl
    · rw [List.getElem?_eq_none (by omega)]; rfl
  simp only [hz]
  have hval : ∀ (x j : Nat), ((us.map (· x))[j]?).getD 0 = ((us[j]?).getD fun _ => 0) x := by
    intro x j
    rw [List.getElem?_map]
    cases us[j]? <;> rfl
  rw [c66_line_partial avx2 i o width padded hw hp _ _ _ _ (hs 0) (hs 1) (hs 2) (hs 3)
    (fun x => (pixelAt i o (us.map (· x))).getD []) (by
      intro x
      have h1 := hF (us.map (· x)) (by rw [List.length_map, hk])
      obtain ⟨v, hv⟩ := Option.isSome_iff_exists.1 h1
      have h2 := hv
      unfold pixelAt at h2
      simp only [hval] at h2
      rw [hv, Option.getD_some, h2]) hbr buf (by
      rw [hb]
      cases o with
      | layout l => rfl
      | _ => rfl)]

end Zune.Jpeg
