/-
Lemmas: what the JPEG XL encoder writes is read back by the rules of the specification.
-/
import Verif.Jxl.Stream

namespace Zune.Jxl

open Prefix (word Used weight)
open Rfc7932 (Describes)
open Iso (P u u32 must LfGlobal CodesRead CodeRead ChannelsRead GroupRead Padding modularHeader)

/-! ### The first section -/

/-- The tree of the encoder. -/
def theTree : List Iso.Node := [.split 0 1, .split 0 2, .split 0 0, .leaf 5 0 1, .leaf 5 0 1, .leaf 5 0 1, .leaf 5 0 1]

theorem preface_read (X : List Bool) : ∃ b1 h1 b2 c1 b3 b4 h2 b5,
    (do must (u 1) 1; must (u 1) 1 : P Unit) (fields dcPreface ++ X) = some ((), b1) ∧
    Iso.entropyHead 6 b1 = some (h1, b2) ∧ h1.lz77.isNone ∧ CodesRead h1.sizes b2 c1 b3 ∧
    Iso.nodes (Iso.value h1 c1) 1000 1 b3 = some (theTree, b4) ∧
    Iso.entropyHead 4 b4 = some (h2, b5) ∧ h2.sizes = [2, 257, 257, 257, 257] ∧
    CodeRead 2 b5 (.single 1) X ∧ h2.lz77 = some ⟨224, 7, ⟨4, 0, 0⟩⟩ ∧ h2.clusters = [4, 3, 2, 1, 0] ∧ h2.configs = [⟨0, 0, 0⟩, ⟨0, 0, 0⟩, ⟨0, 0, 0⟩, ⟨0, 0, 0⟩, ⟨0, 0, 0⟩] := by
  refine ⟨_, _, _, _, _, _, _, _, rfl, rfl, rfl, .cons _ _ _ _ _ _ _ (.simple _ _ _ rfl) (.nil _), rfl, rfl, rfl, .simple _ _ _ rfl, rfl, rfl, rfl⟩

/-- The first section describes the codes. -/
theorem lfGlobal_read {o : Opts} {data : List UInt8} (h : o.Fits data) {cs : List PrefixCode} (hl : cs.length = 4) (hcs : ∀ code ∈ cs, ChannelCode o code) (X : List Bool) :
    LfGlobal o.channels (dcFields o cs ++ X) ((cs.take o.channels).map PrefixCode.lens) (decide (2 < o.channels)) X := by
  have hch := channels_cases h
  match cs, hl with
  | [k0, k1, k2, k3], _ =>
    obtain ⟨d0, e0, -, -, r0⟩ := ChannelCode.describe h (hcs k0 (by simp))
    obtain ⟨d1, e1, -, -, r1⟩ := ChannelCode.describe h (hcs k1 (by simp))
    obtain ⟨d2, e2, -, -, r2⟩ := ChannelCode.describe h (hcs k2 (by simp))
    obtain ⟨d3, e3, -, -, r3⟩ := ChannelCode.describe h (hcs k3 (by simp))
    have hd : dcFields o [k0, k1, k2, k3] ++ X = fields dcPreface ++ (fields d0 ++ (fields d1 ++ (fields d2 ++ (fields d3 ++ (fields (dcEnd o) ++ X))))) := by
      rw [dcFields_eq (l := dcPreface ++ (d0 ++ d1 ++ d2 ++ d3) ++ dcEnd o) (by simp [dcBits, dcEnd, e0, e1, e2, e3])]
      simp only [fields_append, List.append_assoc]
    rw [hd]
    obtain ⟨b1, h1, b2, c1, b3, b4, h2, b5, p1, p2, p3, p4, p5, p6, p7, p8, p9, p10, p11⟩ :=
      preface_read (fields d0 ++ (fields d1 ++ (fields d2 ++ (fields d3 ++ (fields (dcEnd o) ++ X)))))
    refine ⟨b1, h1, b2, c1, b3, theTree, b4, h2, b5, [.single 1, .lens k0.lens, .lens k1.lens, .lens k2.lens, .lens k3.lens], fields (dcEnd o) ++ X,
      p1, p2, p3, p4, p5, p6, ?_, p9, ⟨0, ?_, rfl, by rw [p11]; rfl⟩, ?_, ?_, ?_⟩
    · rw [p7]
      exact .cons _ _ _ _ _ _ _ p8 (.cons _ _ _ _ _ _ _ (.complex _ _ _ ((r0 _ _ _).2 ⟨rfl, rfl⟩)) (.cons _ _ _ _ _ _ _ (.complex _ _ _ ((r1 _ _ _).2 ⟨rfl, rfl⟩))
        (.cons _ _ _ _ _ _ _ (.complex _ _ _ ((r2 _ _ _).2 ⟨rfl, rfl⟩)) (.cons _ _ _ _ _ _ _ (.complex _ _ _ ((r3 _ _ _).2 ⟨rfl, rfl⟩)) (.nil _)))))
    · rw [p10]; rfl
    · rcases hch with e | e | e | e <;> rw [e] <;> rfl
    · intro c hc others
      have hw : ∃ x, Iso.walk theTree (fun q => if q = 0 then (c : Int) else others q) 1000 0 = some (x, .leaf 5 0 1) ∧ [4, 3, 2, 1, 0][x]? = some (c + 1) := by
        have : c = 0 ∨ c = 1 ∨ c = 2 ∨ c = 3 := by omega
        rcases this with rfl | rfl | rfl | rfl <;> exact ⟨_, rfl, rfl⟩
      obtain ⟨x, hx1, hx2⟩ := hw
      have hl : ∃ l, ([.single 1, .lens k0.lens, .lens k1.lens, .lens k2.lens, .lens k3.lens] : List Iso.Code)[c + 1]? = some (.lens l) ∧
          (([k0, k1, k2, k3].take o.channels).map PrefixCode.lens)[c]? = some l := by
        rw [List.getElem?_map, List.getElem?_take_of_lt hc]
        have : c = 0 ∨ c = 1 ∨ c = 2 ∨ c = 3 := by omega
        rcases this with rfl | rfl | rfl | rfl <;> exact ⟨_, rfl, rfl⟩
      obtain ⟨l, hl1, hl2⟩ := hl
      refine ⟨x, c + 1, l, hx1, by rw [p10]; exact hx2, hl1, hl2, ?_⟩
      rw [p11]
      have : c = 0 ∨ c = 1 ∨ c = 2 ∨ c = 3 := by omega
      rcases this with rfl | rfl | rfl | rfl <;> rfl
    · rw [dcEnd]
      rcases hch with e | e | e | e <;> rw [e] <;> rfl

/-! ### A decoder has no choice -/

theorem codeRead_unique {n : Nat} {bits : List Bool} {c c' : Iso.Code} {r r' : List Bool} (h : CodeRead n bits c r) (h' : CodeRead n bits c' r') : c = c' ∧ r = r' := by
  have key : ∀ {c r l r'}, Iso.simpleCode n bits = some (c, r) → Describes n bits l r' → False := by
    intro c r l r' h1 h2
    obtain ⟨skip, cl, b1, b2, s1, s2, rfl, -⟩ := h2
    have h3 := rd_u (n := 2) s1 b1
    rw [Iso.simpleCode, bind_apply, Iso.must, bind_apply, h3, Option.bind_some] at h1
    simp only [if_neg s2] at h1
    cases h1
  cases h with
  | simple _ _ h1 =>
    cases h' with
    | simple _ _ h2 =>
      rw [h1] at h2
      cases h2
      exact ⟨rfl, rfl⟩
    | complex _ _ h2 => exact (key h1 h2).elim
  | complex _ _ h1 =>
    cases h' with
    | simple _ _ h2 => exact (key h2 h1).elim
    | complex _ _ h2 =>
      obtain ⟨rfl, rfl⟩ := describes_unique h1 h2
      exact ⟨rfl, rfl⟩

theorem codesRead_unique {n : List Nat} {bits : List Bool} {c : List Iso.Code} {r : List Bool} (h : CodesRead n bits c r) :
    ∀ {c' r'}, CodesRead n bits c' r' → c = c' ∧ r = r' := by
  induction h with
  | nil bits => intro c' r' h'; cases h'; exact ⟨rfl, rfl⟩
  | cons n sizes bits bits' c codes rest h1 _ ih =>
    intro c' r' h'
    cases h' with
    | cons _ _ _ bits'' c'' codes'' _ h3 h4 =>
      obtain ⟨rfl, rfl⟩ := codeRead_unique h1 h3
      obtain ⟨rfl, rfl⟩ := ih h4
      exact ⟨rfl, rfl⟩

theorem lfGlobal_unique {n : Nat} {bits : List Bool} {lens lens' : List (List Nat)} {rct rct' : Bool} {rest rest' : List Bool} (h : LfGlobal n bits lens rct rest)
    (h' : LfGlobal n bits lens' rct' rest') : lens = lens' ∧ rct = rct' ∧ rest = rest' := by
  obtain ⟨b1, h1, b2, c1, b3, tree, b4, h2, b5, c2, b6, a1, a2, -, a4, a5, a6, a7, -, -, a10, a11, a12⟩ := h
  obtain ⟨b1', h1', b2', c1', b3', tree', b4', h2', b5', c2', b6', a1', a2', -, a4', a5', a6', a7', -, -, a10', a11', a12'⟩ := h'
  rw [a1] at a1'; cases a1'
  rw [a2] at a2'; cases a2'
  obtain ⟨rfl, rfl⟩ := codesRead_unique a4 a4'
  rw [a5] at a5'; cases a5'
  rw [a6] at a6'; cases a6'
  obtain ⟨rfl, rfl⟩ := codesRead_unique a7 a7'
  rw [a12] at a12'; cases a12'
  refine ⟨?_, rfl, rfl⟩
  apply List.ext_getElem?
  intro c
  by_cases hc : c < n
  · obtain ⟨x, i, l, w1, w2, w3, w4, -⟩ := a11 c hc fun _ => 0
    obtain ⟨x', i', l', w1', w2', w3', w4', -⟩ := a11' c hc fun _ => 0
    rw [w1] at w1'; cases w1'
    rw [w2] at w2'; cases w2'
    rw [w3] at w3'; cases w3'
    rw [w4, w4']
  · rw [List.getElem?_eq_none (by omega), List.getElem?_eq_none (by omega)]

/-- Reading as many values from the same bits ends at the same place. -/
theorem reads_prefix {lens : List Nat} (hN : ∀ l ∈ lens, l ≤ 15) (hk : weight 15 lens ≤ 2 ^ 15) {last : Option Nat} {s : List Bool} {a : List Nat}
    (ha : Reads lens last s a) : ∀ {t : List Bool} {b : List Nat} {r r' : List Bool}, Reads lens last t b → a.length = b.length → s ++ r = t ++ r' → a = b ∧ r = r' := by
  induction ha with
  | done last =>
    intro t b r r' hb hl he
    cases hb with
    | done => exact ⟨rfl, he⟩
    | value _ tok x bits syms hu _ _ _ => simp at hl
    | copy _ tok x bits syms hu _ _ _ => simp at hl; omega
  | value last tok x bits syms hu ht hx hr ih =>
    intro t b r r' hb hl he
    cases hb with
    | done => simp at hl
    | value _ tok' x' bits' syms' hu' ht' hx' hr' =>
      simp only [List.append_assoc] at he
      obtain ⟨rfl, h1⟩ := Prefix.word_unique hN hk hu hu' he
      obtain ⟨h2, h3⟩ := List.append_inj h1 (by simp)
      obtain rfl := lsb_inj hx hx' h2
      obtain ⟨rfl, rfl⟩ := ih hr' (by simpa using hl) h3
      exact ⟨rfl, rfl⟩
    | copy _ tok' x' bits' syms' hu' ht' hx' hr' =>
      simp only [List.append_assoc] at he
      obtain ⟨rfl, h1⟩ := Prefix.word_unique hN hk hu hu' he
      omega
  | copy last tok x bits syms hu ht hx hr ih =>
    intro t b r r' hb hl he
    cases hb with
    | done => simp at hl
    | value _ tok' x' bits' syms' hu' ht' hx' hr' =>
      simp only [List.append_assoc] at he
      obtain ⟨rfl, h1⟩ := Prefix.word_unique hN hk hu hu' he
      omega
    | copy _ tok' x' bits' syms' hu' ht' hx' hr' =>
      simp only [List.append_assoc] at he
      obtain ⟨rfl, h1⟩ := Prefix.word_unique hN hk hu hu' he
      obtain ⟨h2, h3⟩ := List.append_inj h1 (by simp)
      obtain rfl := lsb_inj hx hx' h2
      obtain ⟨rfl, rfl⟩ := ih hr' (by simpa using hl) h3
      exact ⟨rfl, rfl⟩

theorem channelsRead_unique {n : Nat} {lens : List (List Nat)} (hc : ∀ l ∈ lens, (∀ x ∈ l, x ≤ 15) ∧ weight 15 l ≤ 2 ^ 15) {last : Option Nat} {bits : List Bool}
    {all : List (List Nat)} {rest : List Bool} (h : ChannelsRead n lens last bits all rest) : ∀ {all' rest'}, ChannelsRead n lens last bits all' rest' →
      all = all' ∧ rest = rest' := by
  induction h with
  | nil last bits => intro all' rest' h'; cases h'; exact ⟨rfl, rfl⟩
  | cons l lens last bits bits' syms all rest h1 h2 _ ih =>
    intro all' rest' h'
    generalize hb : bits ++ bits' = b at h'
    cases h' with
    | cons _ _ _ t t' syms' all'' _ h3 h4 h5 =>
      obtain ⟨rfl, rfl⟩ := reads_prefix (hc l (by simp)).1 (hc l (by simp)).2 h1 h3 (by omega) hb
      obtain ⟨rfl, rfl⟩ := ih (fun l hl => hc l (by simp [hl])) h5
      exact ⟨rfl, rfl⟩

theorem groupRead_unique {lens : List (List Nat)} (hc : ∀ l ∈ lens, (∀ x ∈ l, x ≤ 15) ∧ weight 15 l ≤ 2 ^ 15) {x0 y0 xs ys : Nat} {bits : List Bool}
    {chan chan' : Nat → Nat → Nat → Int} (h : GroupRead lens x0 y0 xs ys bits chan) (h' : GroupRead lens x0 y0 xs ys bits chan') :
    ∀ c < lens.length, ∀ y < ys, ∀ x < xs, chan c (y0 + y) (x0 + x) = chan' c (y0 + y) (x0 + x) := by
  obtain ⟨all, rest, a1, -, a3⟩ := h
  obtain ⟨all', rest', a1', -, a3'⟩ := h'
  obtain ⟨rfl, rfl⟩ := channelsRead_unique hc a1 a1'
  intro c hcl y hy x hx
  obtain ⟨s, s1, s2⟩ := a3 c hcl
  obtain ⟨s', s1', s2'⟩ := a3' c hcl
  rw [s1] at s1'; cases s1'
  exact decodes_unique s2 s2' y hy x hx

/-! ### The groups -/

/-- Every run of the picture fits 32 bits when encoded: the condition of C73. -/
def RunsFit (o : Opts) (data : List UInt8) (cs : List PrefixCode) : Prop :=
  ∀ g < o.groupsX * o.groupsY, ∀ c < o.channels, ∀ code, cs[c]? = some code →
    ∀ r ∈ (o.proc data g c).run :: (o.proc data g c).calls.map Call.run, r ≤ 2055 ∨ RunFits code r

theorem chan_read {o : Opts} {data : List UInt8} (h : o.Fits data) {cs : List PrefixCode} (hcs : ∀ code ∈ cs, CodeSpec o code) (hr : RunsFit o data cs)
    {g c : Nat} (hg : g < o.groupsX * o.groupsY) (hc : c < o.channels) {code : PrefixCode} (hcode : cs[c]? = some code) (last : Option Nat) :
    Reads code.lens last (chanBits o data cs g c) (o.proc data g c).symbols := by
  have hs := hcs code (List.mem_of_getElem? hcode)
  obtain ⟨h1, h2⟩ := proc_spec h g c
  have h3 := resBits_lt h
  have hruns := (proc_symbols h g c).2
  have h4 := groupArea_le h hg
  rw [chanBits, hcode]
  apply channel_read hs.good
  · intro v hv
    have hv := h2 v hv
    have hp : 2 ^ o.resBits ≤ 2 ^ 18 := Nat.pow_le_pow_right (by omega) (by omega)
    refine ⟨by omega, (hs.used _).2 (Or.inl ?_)⟩
    obtain ⟨-, -, -, ht⟩ := c52_residual v (by omega)
    have := ht _ hv
    omega
  · intro r hrm
    have h8 : r = 0 ∨ 8 ≤ r := by
      rcases List.mem_cons.1 hrm with rfl | h
      · exact hruns.1
      · obtain ⟨q, hq, rfl⟩ := List.mem_map.1 h
        exact hruns.2 q hq
    rcases h8 with h8 | h8
    · exact Or.inl h8
    · have h5 := length_runs _ r hrm
      refine Or.inr ⟨h8, by omega, ?_⟩
      rcases hr g hg c hc code hcode r hrm with h6 | h6
      · exact runFits_short hs.good (hs.raw7 0 (by omega)) h8 h6
      · exact h6
  · exact (hs.used 0).2 (Or.inl (by omega))
  · exact fun t ht => (hs.used _).2 (Or.inr (by omega))

theorem channels_read {o : Opts} {data : List UInt8} (h : o.Fits data) {cs : List PrefixCode} (hl : cs.length = 4) (hcs : ∀ code ∈ cs, CodeSpec o code) (hr : RunsFit o data cs)
    {g : Nat} (hg : g < o.groupsX * o.groupsY) (rest : List Bool) : ∀ k c last, c + k = o.channels →
    ChannelsRead ((o.groupArea g).2.2.2 * (o.groupArea g).2.2.1) (((cs.take o.channels).drop c).map PrefixCode.lens) last
      (((List.range' c k).flatMap (chanBits o data cs g)) ++ rest) ((List.range' c k).map fun c => (o.proc data g c).symbols) rest := by
  have hch := h.channels
  intro k
  induction k with
  | zero =>
    intro c last hc
    rw [List.drop_of_length_le (by simp; omega)]
    exact .nil _ _
  | succ k ih =>
    intro c last hc
    have hc' : c < cs.length := by omega
    have hd : (cs.take o.channels).drop c = cs[c] :: (cs.take o.channels).drop (c + 1) := by
      rw [List.drop_eq_getElem_cons (by simp; omega)]
      simp
    rw [hd, List.map_cons, List.range'_succ, List.flatMap_cons, List.map_cons, List.append_assoc]
    exact .cons _ _ _ _ _ _ _ _ (chan_read h hcs hr hg (by omega) (List.getElem?_eq_getElem hc') last) (proc_spec h g c).1 (ih (c + 1) _ (by omega))

theorem group_read {o : Opts} {data : List UInt8} (h : o.Fits data) {cs : List PrefixCode} (hl : cs.length = 4) (hcs : ∀ code ∈ cs, CodeSpec o code) (hr : RunsFit o data cs)
    {g : Nat} (hg : g < o.groupsX * o.groupsY) {rest : List Bool} (hp : Padding rest) :
    GroupRead ((cs.take o.channels).map PrefixCode.lens) (o.groupArea g).1 (o.groupArea g).2.1 (o.groupArea g).2.2.1 (o.groupArea g).2.2.2
      ((List.range o.channels).flatMap (chanBits o data cs g) ++ rest) (fun c y x => (pixAt o data c y x).toInt) := by
  have hch := h.channels
  refine ⟨(List.range o.channels).map fun c => (o.proc data g c).symbols, rest, ?_, hp, ?_⟩
  · have := channels_read h hl hcs hr hg rest o.channels 0 none (by omega)
    rw [← List.range_eq_range'] at this
    exact this
  · intro c hc
    have hc : c < o.channels := by simp at hc; omega
    refine ⟨(o.proc data g c).symbols, by rw [List.getElem?_map, List.getElem?_range hc]; rfl, ?_⟩
    obtain ⟨B, hB, hpix⟩ := pixAt_bound h
    exact (c71_prediction (fun y x => pixAt o data c ((o.groupArea g).2.1 + y) ((o.groupArea g).1 + x)) B (by omega) (fun y x => hpix c _ _) _ _).1

end Zune.Jxl
