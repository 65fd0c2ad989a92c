import Verif.Jpeg.McuRows

/-!
# zune-jpeg: a frame in one scan (lemmas)
-/

namespace Zune.Jpeg

open Zune.Canon Zune.Stream

theorem compsLoop_get (width hm vm : Nat) (y : Factor) (H : Nat) : ∀ (l : List Factor) (isY : Bool) (m : Nat),
    (∀ f ∈ l, f.h ≤ H) → (m = H ∨ m ≤ H ∧ ∀ f, l.head? = some f → f.h = H) →
    (compsLoop width hm vm y isY m l).length = l.length ∧ ∀ (k : Nat) (f : Factor), l[k]? = some f →
      ∃ c, (compsLoop width hm vm y isY m l)[k]? = some c ∧ c.stride = f.h * (divCeil width (H * 8) * 8) ∧ c.vs = f.v
  | [], _, _, _, _ => ⟨rfl, fun k f h => by simp at h⟩
  | f :: l, isY, m, hle, hm' => by
    have hmax : max m f.h = H := by
      have := hle f (by simp)
      rcases hm' with rfl | ⟨h1, h2⟩
      · omega
      · have := h2 f rfl; omega
    obtain ⟨a, b⟩ := compsLoop_get width hm vm y H l false H (fun f hf => hle f (by simp [hf])) (.inl rfl)
    rw [compsLoop, hmax]
    refine ⟨by simp [a], fun k g hk => ?_⟩
    cases k with
    | zero =>
      simp only [List.getElem?_cons_zero, Option.some.injEq] at hk
      subst hk
      exact ⟨_, rfl, rfl, rfl⟩
    | succ k =>
      rw [List.getElem?_cons_succ] at hk ⊢
      exact b k g hk

theorem setup_get (width : Nat) {f0 : Factor} {fs : List Factor} (hd : Divides f0 fs) :
    (setupComps width (f0 :: fs)).length = (f0 :: fs).length ∧ ∀ (k : Nat) (f : Factor), (f0 :: fs)[k]? = some f →
      ∃ c, (setupComps width (f0 :: fs))[k]? = some c ∧ c.stride = f.h * (divCeil width (f0.h * 8) * 8) ∧ c.vs = f.v := by
  have h0 := hd.h0
  refine compsLoop_get width _ _ f0 f0.h (f0 :: fs) true 1 ?_ (.inr ⟨h0, ?_⟩)
  · intro f hf
    rcases List.mem_cons.1 hf with rfl | hf
    · exact le_refl _
    · exact Nat.le_of_dvd h0 (hd.hd f hf)
  · intro f hf
    cases hf
    rfl

theorem mcuAcross_eq (width : Nat) {f0 : Factor} {fs : List Factor} (hd : Divides f0 fs) :
    mcuAcross width (f0 :: fs) = divCeil width (f0.h * 8) := by
  unfold mcuAcross
  rw [hd.hMax, hd.vMax]
  split
  · rfl
  · rename_i h
    have : f0.h = 1 := by omega
    rw [this]
    unfold divCeil
    omega

/-- Whether the samples of component `k` of `n` are kept. -/
def isNeeded (out : OutSpace) (n k : Nat) : Bool := decide (min (out.comps - 1) k = k ∨ n = 4)

theorem work_get (width : Nat) (out : OutSpace) {f0 : Factor} {fs : List Factor} (hd : Divides f0 fs)
    (qts : List (List Nat)) (hq : qts.length = (f0 :: fs).length) (x y : Nat) :
    (setupWork width out (f0 :: fs) qts true x y).length = (f0 :: fs).length ∧
    ∀ (k : Nat) (f : Factor) (q : List Nat), (f0 :: fs)[k]? = some f → qts[k]? = some q →
      ∃ w, (setupWork width out (f0 :: fs) qts true x y)[k]? = some w ∧
        w.stride = f.h * (divCeil width (f0.h * 8) * 8) ∧ w.qt = (fun i => BitVec.ofNat 32 (q.getD i 0)) ∧
        w.needed = isNeeded out (f0 :: fs).length k ∧ w.pred = 0 ∧
        w.raw.length = if w.needed then w.stride * f.v * 8 else 0 := by
  obtain ⟨a, b⟩ := setup_get width hd
  unfold setupWork
  constructor
  · simp only [List.length_mapIdx, List.length_zip, a, hq, Nat.min_self]
  · intro k f q hf hqk
    obtain ⟨c, c1, c2, c3⟩ := b k f hf
    rw [List.getElem?_mapIdx]
    have : (List.zip (setupComps width (f0 :: fs)) (List.zip (f0 :: fs) qts))[k]? = some (c, f, q) := by
      rw [List.getElem?_zip_eq_some, List.getElem?_zip_eq_some]
      exact ⟨c1, hf, hqk⟩
    rw [this]
    refine ⟨_, rfl, c2, rfl, rfl, rfl, ?_⟩
    simp only [c2, c3]
    split
    · rw [List.length_replicate]
    · rfl

theorem base_ok (avx2 : Bool) (o : HdrOpts) (out : OutSpace) (d : Hdr) (s : Bytes) (pixels : List UInt8) (tail : List UInt8)
    {i : InSpace} {qts : List (List Nat)} (hsp : settleSpace o.strict d.comps.length d.space = some i)
    (hq : quantOf d = some qts) (hmj : d.mjpeg = false) {d1 : Hdr} (hd1 : d1 = { resetLuma i d with space := i })
    {f0 : Factor} {fs : List Factor} (hfs : factors d1 = f0 :: fs) (hd : Divides f0 fs)
    (hpos : ∀ f ∈ f0 :: fs, 0 < f.h ∧ 0 < f.v)
    (hns : d1.ns = d1.comps.length) (hct : checkTables d1 = true)
    (hord : ∀ k, k ∈ d1.zorder.take d1.ns ↔ k < d1.comps.length)
    {comps : Nat → ScanComp} {F : Nat → Factor} (hcomp : ∀ (k : Nat) (c : HComp), d1.comps[k]? = some c → (comps k).Ok ∧
      d1.dc c.td = some (comps k).dt ∧ d1.ac c.ta = some (comps k).t ∧ F k = ⟨c.h, c.v⟩ ∧
      (d1.sub = false → c.h = 1 ∧ c.v = 1) ∧
      ∃ q, qts[k]? = some q ∧ (comps k).qt = fun i => BitVec.ofNat 32 (q.getD i 0))
    {Z : Nat → Nat → Nat → List Int} {p : Post} (hp : p = framePost avx2 i out d1.width d1.height (f0 :: fs))
    (hdc : ∀ k < d1.comps.length, ∀ y < p.mcuHeight * (F k).v, ∀ x < divCeil d1.width (f0.h * 8) * (F k).h,
      DcSmall (comps k).qt (Z k y x))
    (hscan : ScanData comps d1.restart tail 0
      (mcuRows (d1.zorder.take d1.ns) F Z (divCeil d1.width (f0.h * 8)) 0 p.mcuHeight) s)
    (hR : d1.restart < 2 ^ 64) (htodo : d1.restart ≠ 0 → d1.todo = d1.restart) {ps' : PState}
    (hpost : postAll p (fun i => (List.range d1.comps.length).map fun k => if isNeeded out d1.comps.length k then
        compRow (comps k).qt (F k) (Z k) (divCeil d1.width (f0.h * 8)) i else []) p.mcuHeight 0
      ⟨setupComps d1.width (f0 :: fs), [], pixels⟩ = some ps') :
    ∃ ms', decodeBaseline avx2 o out d s pixels = .ok (ms', ps'.done ++ ps'.rest) ∧ ms'.bs.rest = tail := by
  set X := divCeil d1.width (f0.h * 8) with hX
  set n := d1.comps.length with hn
  have hlen : (f0 :: fs).length = n := by rw [← hfs]; unfold factors; rw [List.length_map]
  have hfac : ∀ (k : Nat) (c : HComp), d1.comps[k]? = some c → (f0 :: fs)[k]? = some ⟨c.h, c.v⟩ := by
    intro k c hc
    rw [← hfs]
    unfold factors
    rw [List.getElem?_map, hc]
    rfl
  have hget : ∀ k, k < n → ∃ c, d1.comps[k]? = some c := fun k hk => ⟨_, List.getElem?_eq_getElem hk⟩
  have hql : qts.length = (f0 :: fs).length := by
    have : qts.length = d.comps.length := by
      unfold quantOf at hq
      have key : ∀ {α} (l : List (Option α)) r, allSome l = some r → r.length = l.length := by
        intro α l
        induction l with
        | nil => intro r h; cases h; rfl
        | cons a l ih =>
          intro r h
          cases a with
          | none => cases h
          | some a =>
            rw [allSome, Option.map_eq_some_iff] at h
            obtain ⟨r', h1, rfl⟩ := h
            simp [ih r' h1]
      rw [key _ _ hq, List.length_map]
    rw [this, hlen, hn, hd1]
    unfold resetLuma
    split
    · simp
    · rfl
  set work := setupWork d1.width out (f0 :: fs) qts true X p.mcuHeight with hwork
  obtain ⟨w1, w2⟩ := work_get d1.width out hd qts hql X p.mcuHeight
  rw [← hwork] at w1 w2
  set cfg : Cfg := { o := o, isa := chooseIdct avx2, all := true, mcuX := X } with hcfg
  have hw : ∀ (k : Nat) (c : HComp), d1.comps[k]? = some c → ∃ w, work[k]? = some w ∧ w.stride = c.h * (X * 8) ∧ w.qt = (comps k).qt ∧
      w.needed = isNeeded out n k ∧ w.pred = 0 ∧ w.raw.length = if w.needed then w.stride * c.v * 8 else 0 := by
    intro k c hc
    obtain ⟨_, _, _, _, _, q, q1, q2⟩ := hcomp k c hc
    obtain ⟨w, a1, a2, a3, a4, a5, a6⟩ := w2 k _ q (hfac k c hc) q1
    rw [hlen] at a4
    exact ⟨w, a1, a2, a3.trans q2.symm, a4, a5, a6⟩
  have hcpos : ∀ (k : Nat) (c : HComp), d1.comps[k]? = some c → 0 < c.h ∧ 0 < c.v := fun k c hc =>
    hpos ⟨c.h, c.v⟩ (List.mem_of_getElem? (hfac k c hc))
  have hn0 : 0 < n := by rw [← hlen]; simp
  have plan : Plan d1 (work.map shapeOf) comps F cfg.mcuX := by
    refine ⟨?_, ?_, ?_, ?_, ?_⟩
    · intro k hk
      obtain ⟨c, hc⟩ := hget k ((hord k).1 hk)
      obtain ⟨_, a2, a3, a4, a5, _⟩ := hcomp k c hc
      have htab : c.td < 4 ∧ c.ta < 4 := by
        unfold checkTables at hct
        have := List.all_eq_true.1 hct c (List.mem_of_getElem? hc)
        simp only [Bool.and_eq_true, decide_eq_true_eq] at this
        exact ⟨this.1.1.1, this.1.2⟩
      refine ⟨c, hc, by rw [a4], by rw [a4], ?_, ?_, ?_⟩
      · rw [Nat.mod_eq_of_lt htab.1]; exact a2
      · rw [Nat.mod_eq_of_lt htab.2]; exact a3
      · rw [a4]; exact a5
    · intro k hk
      obtain ⟨c, hc⟩ := hget k ((hord k).1 hk)
      exact (hcomp k c hc).1
    · intro k hk
      obtain ⟨c, hc⟩ := hget k ((hord k).1 hk)
      obtain ⟨_, a2, a3, a4, a5, _⟩ := hcomp k c hc
      rw [a4]
      exact hcpos k c hc
    · intro k hk
      obtain ⟨c, hc⟩ := hget k ((hord k).1 hk)
      obtain ⟨_, a2, a3, a4, a5, _⟩ := hcomp k c hc
      obtain ⟨w, b1, b2, b3, b4, b5, b6⟩ := hw k c hc
      refine ⟨w.stride, w.needed, w.raw.length, ?_, ?_⟩
      · rw [List.getElem?_map, b1, ← b3]
        rfl
      · intro hneed
        rw [hneed, if_pos rfl] at b6
        rw [a4]
        refine ⟨b6, ?_⟩
        rw [b2]
        show X * c.h * 8 ≤ _
        exact le_of_eq (by ring)
    · intro he
      have := (hord 0).2 hn0
      rw [he] at this
      cases this
  set ms0 : MState := { d := d1, bs := Bs.new s, work := work, more := true, tmp := fun _ _ => 0 } with hms0
  have hst0 : Steady d1 (work.map shapeOf) ms0 := ⟨rfl, rfl, fun r c => by simp [ms0, clobber]⟩
  have hready : Ready comps d1.restart tail (mcuRows (d1.zorder.take d1.ns) F Z X 0 p.mcuHeight) ms0 := by
    refine ready_new hscan rfl ?_ htodo hR
    intro k w hk hneed
    have hkn : k < n := by
      have := (List.getElem?_eq_some_iff.1 hk).1
      rw [← hlen, ← w1]
      exact this
    obtain ⟨c, hc⟩ := hget k hkn
    obtain ⟨w', b1, _, _, _, b5, _⟩ := hw k c hc
    have : w = w' := Option.some.inj (hk.symm.trans b1)
    rw [this, b5]
    rfl
  obtain ⟨ms', e1, e2, e3⟩ := rows_ok (cfg := cfg) (avx2 := avx2) rfl rfl plan hR p (N := p.mcuHeight)
    (fun k hk y hy x hx => hdc k ((hord k).1 hk) y hy x hx)
    (raws := fun i => (List.range n).map fun k => if isNeeded out n k then
        compRow (comps k).qt (F k) (Z k) X i else []) (by
      intro i _ ms hst htl
      refine List.ext_getElem? fun k => ?_
      have hlw : ms.work.length = n := by
        have := congrArg List.length hst.work
        rw [List.length_map, List.length_map, w1, hlen] at this
        exact this
      by_cases hk : k < n
      swap
      · rw [List.getElem?_eq_none (by simp; omega), List.getElem?_eq_none (by simp; omega)]
      obtain ⟨c, hc⟩ := hget k hk
      obtain ⟨_, a2, a3, a4, a5, _⟩ := hcomp k c hc
      obtain ⟨w', b1, b2, b3, b4, b5, b6⟩ := hw k c hc
      have hwk : ms.work[k]? = some ms.work[k] := List.getElem?_eq_getElem (by omega)
      generalize ms.work[k] = w at hwk
      have hsh : shapeOf w = shapeOf w' := by
        have := congrArg (·[k]?) hst.work
        simp only [List.getElem?_map, hwk, b1, Option.map_some, Option.some.injEq] at this
        exact this
      unfold shapeOf at hsh
      simp only [Prod.mk.injEq] at hsh
      obtain ⟨s1, s2, s3, s4⟩ := hsh
      rw [List.getElem?_map, hwk, List.getElem?_map, List.getElem?_range hk]
      simp only [Option.map_some, Option.some.injEq]
      rw [← b4]
      by_cases hneed : w'.needed = true
      · rw [if_pos hneed]
        rw [hneed, if_pos rfl] at b6
        refine compRow_eq w.raw ?_ ?_
        · rw [s4, b6, b2, a4]
        · intro v hv x hx r c'
          have := htl k v x (by
            rw [List.mem_flatMap]
            have hp := (hcpos k c hc).1
            refine ⟨x / (F k).h, ?_, ?_⟩
            · rw [List.mem_range'_1]
              refine ⟨Nat.zero_le _, ?_⟩
              rw [Nat.zero_add]
              exact Nat.div_lt_of_lt_mul (by rw [Nat.mul_comm]; exact hx)
            · unfold mcuPlaces
              simp only [List.mem_flatMap, List.mem_map, List.mem_range]
              refine ⟨k, (hord k).2 hk, v, hv, x % (F k).h, ?_, ?_⟩
              · apply Nat.mod_lt
                rw [a4]
                exact hp
              · rw [Nat.mul_comm, Nat.div_add_mod]) w hwk (s3.trans hneed) r c'
          rw [s1, b2] at this
          rw [a4]
          exact this
      · rw [if_neg hneed]
        rw [if_neg hneed] at b6
        exact List.length_eq_zero_iff.1 (s4.trans b6)) p.mcuHeight 0 ms0 _ ps' (by omega) hst0 hready hpost
  refine ⟨if ms'.bs.seenEoi then ms' else { ms' with bs := (getMarker ms'.bs).2 }, ?_, ready_end e3⟩
  unfold decodeBaseline
  rw [hsp, hq, hmj, if_neg (by decide)]
  simp only
  rw [← hd1, if_neg (by rw [hct]; decide)]
  unfold baselineScan
  simp only [hfs]
  rw [← hp, mcuAcross_eq _ hd, ← hX, hns, decide_eq_true rfl]
  simp only [← hwork]
  have hs : sosLoop cfg p (s.length + 2) ms0 ⟨setupComps d1.width (f0 :: fs), [], pixels⟩ = .ok (true, ms', ps') := by
    rw [sosLoop, e1]
  rw [show ({ o := o, isa := chooseIdct avx2, all := true, mcuX := X } : Cfg) = cfg from rfl,
    show ({ d := d1, bs := Bs.new s, work := work, more := true, tmp := fun _ _ => 0 } : MState) = ms0 from rfl, hs]
  simp only [if_true]

end Zune.Jpeg
