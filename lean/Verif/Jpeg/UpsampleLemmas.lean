import Verif.Jpeg.UpsampleModel
import Verif.Jpeg.ColorLemmas

/-!
# zune-jpeg: the upsampling kernels (lemmas)
-/

namespace Zune.Jpeg

/-- Both orders of adding give the same `i16`. -/
theorem triEdge_eq (a b : Int) : triEdge a b = tri a b := by
  unfold triEdge tri wrap16
  omega

/-- Two samples from each, alternately, as a plane. -/
def two (e o : Nat → Int) (k : Nat) : Int := if k % 2 = 0 then e (k / 2) else o (k / 2)

theorem flatMap_two (e o : Nat → Int) (s n : Nat) :
    (List.range' s n).flatMap (fun i => [e i, o i]) = plane (two e o) (2 * s) (2 * n) := by
  induction n generalizing s with
  | zero => rfl
  | succ n ih =>
    rw [List.range'_succ, List.flatMap_cons, ih, show 2 * (n + 1) = (2 * n + 1) + 1 by omega]
    unfold plane
    rw [List.range'_succ, List.range'_succ, List.map_cons, List.map_cons]
    have h1 : two e o (2 * s) = e s := by
      unfold two
      rw [if_pos (by omega), show 2 * s / 2 = s by omega]
    have h2 : two e o (2 * s + 1) = o s := by
      unfold two
      rw [if_neg (by omega), show (2 * s + 1) / 2 = s by omega]
    rw [h1, h2]
    rfl

/-! ### Planes -/

theorem plane_cons (g : Nat → Int) (s n : Nat) : plane g s (n + 1) = g s :: plane g (s + 1) n := by
  unfold plane
  rw [List.range'_succ, List.map_cons]

theorem plane_getElem? (g : Nat → Int) (s n i : Nat) (h : i < n) : (plane g s n)[i]? = some (g (s + i)) := by
  unfold plane
  rw [List.getElem?_map, List.getElem?_range' h]
  simp

theorem plane_append (g : Nat → Int) (s m n : Nat) : plane g s m ++ plane g (s + m) n = plane g s (m + n) := by
  unfold plane
  rw [← List.map_append]
  have := List.range'_append (s := s) (m := m) (n := n) (step := 1)
  rw [Nat.one_mul] at this
  rw [this]

theorem plane_congr (g h : Nat → Int) (s n : Nat) (e : ∀ i, s ≤ i → i < s + n → g i = h i) :
    plane g s n = plane h s n := by
  unfold plane
  apply List.map_congr_left
  intro i hi
  rw [List.mem_range'_1] at hi
  exact e i hi.1 hi.2

/-! ### Horizontal -/

theorem hLoop_eq (g : Nat → Int) : ∀ (m s : Nat) (out : List Int), 2 * m ≤ out.length →
    hLoop (plane g s (m + 2)) out =
      (List.range' (s + 1) m).flatMap (fun i => [tri (g i) (g (i - 1)), tri (g i) (g (i + 1))]) ++
        out.drop (2 * m) := by
  intro m
  induction m with
  | zero =>
    intro s out _
    rw [plane_cons, plane_cons]
    cases out <;> rfl
  | succ m ih =>
    intro s out h
    match out, h with
    | [], h => simp at h
    | [_], h => simp at h; omega
    | x :: y :: o, h =>
      have h' : 2 * m ≤ o.length := by simp only [List.length_cons] at h; omega
      rw [show m + 1 + 2 = (m + 2) + 1 by omega, plane_cons, show m + 2 = (m + 1) + 1 by omega,
        plane_cons, plane_cons]
      unfold hLoop
      rw [← plane_cons, ← plane_cons, show m + 1 + 1 = m + 2 by omega, ih (s + 1) o h',
        List.range'_succ, List.flatMap_cons, show s + 1 - 1 = s by omega,
        show 2 * (m + 1) = 2 * m + 1 + 1 by omega]
      rfl

/-- Specification of horizontal upsampling: out of sample `i` come a sample towards the one before
and one towards the one after, weights 3 to 1; outside, the edge sample is repeated. -/
def hSpec (g : Nat → Int) (n : Nat) : Nat → Int :=
  two (fun i => tri (g i) (g (i - 1))) (fun i => tri (g i) (g (min (i + 1) (n - 1))))

theorem tri_same (a : Int) (h : Sample a) : tri a a = a := by
  obtain ⟨h0, h1⟩ := h
  unfold tri wrap16
  omega

theorem hEnds (g : Nat → Int) (n : Nat) (hn : 2 < n) (hg : ∀ i, Sample (g i)) (out : List Int)
    (ho : out.length = 2 * n) (mid : List Int → List Int)
    (hm : ∀ a b (o : List Int), o.length = 2 * n - 2 → ∃ tl : List Int, tl.length = 2 ∧
      mid (a :: b :: o) = a :: b :: (plane (two (fun i => tri (g i) (g (i - 1)))
        (fun i => tri (g i) (g (i + 1)))) 2 (2 * (n - 2)) ++ tl)) :
    ((hFirst (plane g 0 n) out).bind fun o => hLast (plane g 0 n) (mid o)) =
      some (plane (hSpec g n) 0 (2 * n)) := by
  unfold hFirst hLast
  rw [plane_getElem? g 0 n 0 (by omega), plane_getElem? g 0 n 1 (by omega), plane_length,
    plane_getElem? g 0 n (n - 2) (by omega), plane_getElem? g 0 n (n - 1) (by omega)]
  match out, ho with
  | [], ho => simp at ho; omega
  | [_], ho => simp at ho; omega
  | x :: y :: o, ho =>
    have ho' : o.length = 2 * n - 2 := by simp only [List.length_cons] at ho; omega
    simp only [Option.bind_some, List.set_cons_zero, List.set_cons_succ, triEdge_eq, Nat.zero_add]
    obtain ⟨tl, ht, e⟩ := hm (g 0) (tri (g 0) (g 1)) o ho'
    rw [e]
    match tl, ht with
    | [p, q], _ =>
      have hl : (g 0 :: tri (g 0) (g 1) :: (plane (two (fun i => tri (g i) (g (i - 1)))
        (fun i => tri (g i) (g (i + 1)))) 2 (2 * (n - 2)) ++ [p, q])).length = 2 * n := by
        simp only [List.length_cons, List.length_append, plane_length, List.length_nil]; omega
      rw [hl]
      congr 1
      apply List.ext_getElem?
      intro k
      by_cases hk : k < 2 * n
      · rw [plane_getElem? _ _ _ _ hk, Nat.zero_add, List.getElem?_set, List.length_set, hl,
          List.getElem?_set, hl]
        by_cases k1 : 2 * n - 1 = k
        · rw [if_pos k1, if_pos (by omega)]
          unfold hSpec two
          rw [if_neg (by omega), show k / 2 = n - 1 by omega]
          simp only
          rw [show min (n - 1 + 1) (n - 1) = n - 1 by omega, tri_same _ (hg _)]
        rw [if_neg k1]
        by_cases k2 : 2 * n - 2 = k
        · rw [if_pos k2, if_pos (by omega)]
          unfold hSpec two
          rw [if_pos (by omega), show k / 2 = n - 1 by omega]
          simp only
          rw [show n - 1 - 1 = n - 2 by omega]
        rw [if_neg k2]
        by_cases k3 : k = 0
        · subst k3
          unfold hSpec two
          rw [if_pos (by omega), List.getElem?_cons_zero]
          show some (g 0) = some (tri (g 0) (g 0))
          rw [tri_same _ (hg _)]
        by_cases k4 : k = 1
        · subst k4
          unfold hSpec two
          rw [if_neg (by omega), List.getElem?_cons_succ, List.getElem?_cons_zero]
          show some _ = some (tri (g 0) (g (min (0 + 1) (n - 1))))
          rw [show min (0 + 1) (n - 1) = 1 by omega]
        obtain ⟨j, rfl⟩ : ∃ j, k = j + 2 := ⟨k - 2, by omega⟩
        rw [List.getElem?_cons_succ, List.getElem?_cons_succ, List.getElem?_append_left
          (by rw [plane_length]; omega), plane_getElem? _ _ _ _ (by omega), Nat.add_comm 2 j]
        unfold hSpec two
        by_cases k5 : (j + 2) % 2 = 0
        · rw [if_pos k5, if_pos k5]
        · rw [if_neg k5, if_neg k5]
          simp only
          rw [show min ((j + 2) / 2 + 1) (n - 1) = (j + 2) / 2 + 1 by omega]
      · rw [List.getElem?_eq_none (by rw [List.length_set, List.length_set, hl]; omega),
          List.getElem?_eq_none (by rw [plane_length]; omega)]

theorem upHScalar_eq (g : Nat → Int) (n : Nat) (hn : 2 < n) (hg : ∀ i, Sample (g i)) (out : List Int)
    (ho : out.length = 2 * n) :
    upHScalar (plane g 0 n) out = some (plane (hSpec g n) 0 (2 * n)) := by
  unfold upHScalar
  rw [plane_length, if_pos (by omega)]
  have := hEnds g n hn hg out ho (fun o => o.take 2 ++ hLoop (plane g 0 n) (o.drop 2)) (by
    intro a b o hl
    refine ⟨o.drop (2 * (n - 2)), by rw [List.length_drop]; omega, ?_⟩
    obtain ⟨m, rfl⟩ : ∃ m, n = m + 2 := ⟨n - 2, by omega⟩
    show [a, b] ++ hLoop _ o = _
    rw [hLoop_eq g m 0 o (by omega), flatMap_two]
    rfl)
  rw [← this]
  cases hFirst (plane g 0 n) out <;> rfl

theorem map16 {α} (g : Nat → α) (s : Nat) :
    (List.range' s 16).map g = (List.range 16).map fun i => g (s + i) := by
  rw [List.range'_eq_map_range, List.map_map]
  rfl

theorem zipWith_map_same {α β γ δ} (f : α → β) (g : α → γ) (h : β → γ → δ) (l : List α) :
    List.zipWith h (l.map f) (l.map g) = l.map fun i => h (f i) (g i) := by
  rw [List.zipWith_map, List.zipWith_self]

/-- The shuffles of `hAvx16`. -/
def shuf (even odd : List Int) : List Int :=
  permute2x128W 0x20 (unpackLo16 even odd) (unpackHi16 even odd) ++
    permute2x128W 0x31 (unpackLo16 even odd) (unpackHi16 even odd)

/-- The same on lane numbers. -/
def shufN (even odd : List Nat) : List Nat :=
  let r := unpackLo16 even odd ++ unpackHi16 even odd
  (r.take 8 ++ (r.drop 16).take 8) ++ ((r.drop 8).take 8 ++ (r.drop 24).take 8)

theorem shuf_map (f : Nat → Int) (a b : List Nat) : shuf (a.map f) (b.map f) = (shufN a b).map f := by
  unfold shuf shufN permute2x128W
  rw [(unpack16_map f a b).1, (unpack16_map f a b).2]
  generalize unpackLo16 a b = x
  generalize unpackHi16 a b = y
  simp [List.map_take, List.map_drop]

theorem shuf_eq (e o : Nat → Int) :
    shuf ((List.range 16).map e) ((List.range 16).map o) =
      (List.range 16).flatMap fun i => [e i, o i] := by
  have h := shuf_map (fun k => if k < 16 then e k else o (k - 16)) (List.range 16)
    ((List.range 16).map (· + 16))
  have e1 : shufN (List.range 16) ((List.range 16).map (· + 16)) =
      (List.range 16).flatMap fun i => [i, i + 16] := by decide +kernel
  rw [e1] at h
  exact h

theorem hAvx16_eq (g : Nat → Int) (s : Nat) :
    hAvx16 (plane g s 18) = plane (two (fun i => tri (g i) (g (i - 1)))
      (fun i => tri (g i) (g (i + 1)))) (2 * (s + 1)) 32 := by
  rw [← flatMap_two _ _ (s + 1) 16]
  have h1 : (plane g s 18).take 16 = (List.range 16).map fun i => g (s + i) := by
    rw [plane_take _ _ _ _ (by omega), plane16]
  have h2 : ((plane g s 18).drop 1).take 16 = (List.range 16).map fun i => g (s + 1 + i) := by
    rw [plane_drop, plane_take _ _ _ _ (by omega), plane16]
  have h3 : ((plane g s 18).drop 2).take 16 = (List.range 16).map fun i => g (s + 2 + i) := by
    rw [plane_drop, plane_take _ _ _ _ (by omega), plane16]
  unfold hAvx16
  rw [h1, h2, h3]
  simp only [List.map_map, zipWith_map_same]
  refine (shuf_eq _ _).trans ?_
  rw [List.range'_eq_map_range, List.flatMap_map]
  congr 1
  funext i
  unfold tri
  simp only [Function.comp]
  rw [show s + 1 + i - 1 = s + i by omega, show s + 1 + i + 1 = s + 2 + i by omega,
    Int.mul_comm (g (s + 1 + i)) 3]

theorem hAvxLoop_eq (g : Nat → Int) : ∀ (fuel m s : Nat) (out : List Int), m < fuel →
    out.length = 2 * (m + 1) →
    ∃ k, 16 * k ≤ m ∧ m < 16 * k + 16 ∧ hAvxLoop fuel (plane g s (m + 2)) out =
      plane (two (fun i => tri (g i) (g (i - 1))) (fun i => tri (g i) (g (i + 1)))) (2 * (s + 1)) (32 * k)
        ++ out.drop (32 * k) := by
  intro fuel
  induction fuel with
  | zero => intro m s out h; omega
  | succ fuel ih =>
    intro m s out h ho
    unfold hAvxLoop
    rw [plane_length]
    by_cases hm : 16 ≤ m
    · rw [if_pos (by omega), plane_take _ _ _ _ (by omega), hAvx16_eq, plane_drop,
        show m + 2 - 16 = (m - 16) + 2 by omega]
      obtain ⟨k, h1, h2, e⟩ := ih (m - 16) (s + 16) (out.drop 32) (by omega)
        (by rw [List.length_drop]; omega)
      refine ⟨k + 1, by omega, by omega, ?_⟩
      rw [e, ← List.append_assoc, show 2 * (s + 16 + 1) = 2 * (s + 1) + 32 by omega, plane_append,
        List.drop_drop, show 32 * (k + 1) = 32 + 32 * k by omega]
    · rw [if_neg (by omega)]
      exact ⟨0, by omega, by omega, rfl⟩

theorem upHAvx_eq (g : Nat → Int) (n : Nat) (hn : 2 < n) (hg : ∀ i, Sample (g i)) (out : List Int)
    (ho : out.length = 2 * n) :
    upHAvx (plane g 0 n) out = some (plane (hSpec g n) 0 (2 * n)) := by
  unfold upHAvx
  rw [plane_length, if_pos (by omega)]
  by_cases hs : n < 18
  · rw [if_pos hs]
    exact upHScalar_eq g n hn hg out ho
  rw [if_neg hs]
  have := hEnds g n hn hg out ho
    (fun o => hAvxRest (plane g 0 n) (o.take 2 ++ hAvxLoop (n + 1) (plane g 0 n) (o.drop 2))) (by
      intro a b o hl
      obtain ⟨m, rfl⟩ : ∃ m, n = m + 2 := ⟨n - 2, by omega⟩
      obtain ⟨k, h1, h2, e⟩ := hAvxLoop_eq g (m + 2 + 1) m 0 o (by omega) (by omega)
      refine ⟨o.drop (2 * m), by rw [List.length_drop]; omega, ?_⟩
      show hAvxRest _ ([a, b] ++ hAvxLoop _ _ o) = _
      rw [e]
      have hq : hAvx16 ((plane g 0 (m + 2)).drop (m + 2 - 18)) = plane (two (fun i => tri (g i) (g (i - 1))) (fun i => tri (g i) (g (i + 1)))) (2 * (m - 16 + 1)) 32 := by
        rw [plane_drop, show m + 2 - (m + 2 - 18) = 18 by omega, hAvx16_eq,
          show 0 + (m + 2 - 18) + 1 = m - 16 + 1 by omega]
      generalize two (fun i => tri (g i) (g (i - 1))) (fun i => tri (g i) (g (i + 1))) = q at *
      have hlen : ([a, b] ++ (plane q (2 * (0 + 1)) (32 * k) ++ o.drop (32 * k))).length = 2 * (m + 2) := by
        simp only [List.length_cons, List.length_append, plane_length, List.length_nil, List.length_drop]
        omega
      unfold hAvxRest
      rw [plane_length, hlen, if_pos (by omega)]
      rw [hq]
      have t1 : ([a, b] ++ (plane q (2 * (0 + 1)) (32 * k) ++ o.drop (32 * k))).take (2 * (m + 2) - 2 - 32) =
          [a, b] ++ plane q 2 (2 * m - 32) := by
        rw [show 2 * (m + 2) - 2 - 32 = 2 * m - 32 + 1 + 1 by omega]
        show a :: b :: (plane q (2 * (0 + 1)) (32 * k) ++ o.drop (32 * k)).take (2 * m - 32) = _
        rw [List.take_append_of_le_length (by rw [plane_length]; omega), plane_take _ _ _ _ (by omega)]
        rfl
      have t2 : ([a, b] ++ (plane q (2 * (0 + 1)) (32 * k) ++ o.drop (32 * k))).drop (2 * (m + 2) - 2) =
          o.drop (2 * m) := by
        rw [show 2 * (m + 2) - 2 = 2 * m + 1 + 1 by omega]
        show (plane q (2 * (0 + 1)) (32 * k) ++ o.drop (32 * k)).drop (2 * m) = _
        rw [List.drop_append, List.drop_eq_nil_of_le (by rw [plane_length]; omega), plane_length,
          List.nil_append, List.drop_drop, show 32 * k + (2 * m - 32 * k) = 2 * m by omega]
      rw [t1, t2, List.append_assoc [a, b], show 2 * (m - 16 + 1) = 2 + (2 * m - 32) by omega,
        plane_append, show 2 * m - 32 + 32 = 2 * (m + 2 - 2) by omega]
      rfl)
  rw [← this]
  cases hFirst (plane g 0 n) out <;> rfl

theorem upH_eq (avx2 : Bool) (g : Nat → Int) (n : Nat) (hn : 2 < n) (hg : ∀ i, Sample (g i))
    (out : List Int) (ho : out.length = 2 * n) :
    upH avx2 (plane g 0 n) out = some (plane (hSpec g n) 0 (2 * n)) := by
  cases avx2
  · exact upHScalar_eq g n hn hg out ho
  · exact upHAvx_eq g n hn hg out ho

/-! ### Vertical -/

theorem vLoop_eq (g f : Nat → Int) : ∀ (n s : Nat) (out : List Int), out.length = n →
    vLoop (plane g s n) (plane f s n) out = plane (fun i => tri (g i) (f i)) s n := by
  intro n
  induction n with
  | zero =>
    intro s out h
    cases out with
    | nil => rfl
    | cons a t => simp at h
  | succ n ih =>
    intro s out h
    cases out with
    | nil => simp at h
    | cons a t =>
      rw [plane_cons, plane_cons, plane_cons]
      unfold vLoop
      rw [ih (s + 1) t (by simpa using h)]

theorem upVScalar_eq (g up dn : Nat → Int) (n : Nat) (out : List Int) (ho : out.length = 2 * n) :
    upVScalar (plane g 0 n) (plane up 0 n) (plane dn 0 n) out =
      some (plane (fun i => tri (g i) (up i)) 0 n ++ plane (fun i => tri (g i) (dn i)) 0 n) := by
  unfold upVScalar
  rw [plane_length, plane_length, plane_length, if_pos ⟨by omega, rfl, rfl⟩, ho,
    show 2 * n / 2 = n by omega]
  simp only
  rw [vLoop_eq g up n 0 _ (by rw [List.length_take]; omega),
    vLoop_eq g dn n 0 _ (by rw [List.length_drop]; omega)]

theorem vAvx16_eq (g f : Nat → Int) (s n : Nat) :
    vAvx16 (plane g s n) (plane f s n) = plane (fun i => tri (g i) (f i)) s n := by
  unfold vAvx16 plane
  rw [zipWith_map_same]
  apply List.map_congr_left
  intro i _
  unfold tri
  rw [Int.mul_comm]

theorem vAvxLoop_eq (g f : Nat → Int) : ∀ (fuel n s : Nat) (out : List Int), n < fuel →
    out.length = n →
    ∃ k, 16 * k ≤ n ∧ n < 16 * k + 16 ∧ vAvxLoop fuel (plane g s n) (plane f s n) out =
      plane (fun i => tri (g i) (f i)) s (16 * k) ++ out.drop (16 * k) := by
  intro fuel
  induction fuel with
  | zero => intro n s out h; omega
  | succ fuel ih =>
    intro n s out h ho
    unfold vAvxLoop
    rw [plane_length, plane_length]
    by_cases hm : 16 ≤ n
    · rw [if_pos (by omega), plane_take _ _ _ _ hm, plane_take _ _ _ _ hm, vAvx16_eq, plane_drop,
        plane_drop]
      obtain ⟨k, h1, h2, e⟩ := ih (n - 16) (s + 16) (out.drop 16) (by omega)
        (by rw [List.length_drop]; omega)
      refine ⟨k + 1, by omega, by omega, ?_⟩
      rw [e, ← List.append_assoc, plane_append, List.drop_drop,
        show 16 * (k + 1) = 16 + 16 * k by omega]
    · rw [if_neg (by omega)]
      exact ⟨0, by omega, by omega, rfl⟩

theorem vAvxRow_eq (g f : Nat → Int) (n : Nat) (hn : 16 ≤ n) (out : List Int) (ho : out.length = n) :
    vAvxRest (plane g 0 n) (plane f 0 n) (vAvxLoop (n + 1) (plane g 0 n) (plane f 0 n) out) =
      plane (fun i => tri (g i) (f i)) 0 n := by
  obtain ⟨k, h1, h2, e⟩ := vAvxLoop_eq g f (n + 1) n 0 out (by omega) ho
  rw [e]
  have hl : (plane (fun i => tri (g i) (f i)) 0 (16 * k) ++ out.drop (16 * k)).length = n := by
    rw [List.length_append, plane_length, List.length_drop]; omega
  unfold vAvxRest
  rw [plane_length, plane_length, hl, if_pos (by omega), plane_drop, plane_drop,
    show n - (n - 16) = 16 by omega, vAvx16_eq, List.take_append_of_le_length
      (by rw [plane_length]; omega), plane_take _ _ _ _ (by omega), plane_append,
    show n - 16 + 16 = n by omega]

theorem upVAvx_eq (g up dn : Nat → Int) (n : Nat) (out : List Int) (ho : out.length = 2 * n) :
    upVAvx (plane g 0 n) (plane up 0 n) (plane dn 0 n) out =
      some (plane (fun i => tri (g i) (up i)) 0 n ++ plane (fun i => tri (g i) (dn i)) 0 n) := by
  unfold upVAvx
  rw [plane_length, plane_length, plane_length, if_pos ⟨by omega, rfl, rfl⟩]
  by_cases hs : n < 16
  · rw [if_pos hs, upVScalar_eq g up dn n out ho]
  · rw [if_neg hs, ho, show 2 * n / 2 = n by omega]
    simp only
    rw [vAvxRow_eq g up n (by omega) _ (by rw [List.length_take]; omega),
      vAvxRow_eq g dn n (by omega) _ (by rw [List.length_drop]; omega)]

theorem upV_eq (avx2 : Bool) (g up dn : Nat → Int) (n : Nat) (out : List Int)
    (ho : out.length = 2 * n) :
    upV avx2 (plane g 0 n) (plane up 0 n) (plane dn 0 n) out =
      some (plane (fun i => tri (g i) (up i)) 0 n ++ plane (fun i => tri (g i) (dn i)) 0 n) := by
  cases avx2
  · exact upVScalar_eq g up dn n out ho
  · exact upVAvx_eq g up dn n out ho

theorem wrap16_small (a : Int) (h0 : 0 ≤ a) (h1 : a ≤ 1024) : wrap16 a = a := by
  unfold wrap16
  omega

/-- On samples the `i16` arithmetic is exact. -/
theorem tri_exact (a b : Int) (ha : Sample a) (hb : Sample b) : tri a b = (3 * a + b + 2) / 4 := by
  obtain ⟨a0, a1⟩ := ha
  obtain ⟨b0, b1⟩ := hb
  unfold tri
  rw [wrap16_small (3 * a) (by omega) (by omega), wrap16_small (3 * a + 2) (by omega) (by omega),
    wrap16_small _ (by omega) (by omega)]
  omega

theorem tri_sample (a b : Int) (ha : Sample a) (hb : Sample b) : Sample (tri a b) := by
  rw [tri_exact a b ha hb]
  obtain ⟨a0, a1⟩ := ha
  obtain ⟨b0, b1⟩ := hb
  unfold Sample
  omega

theorem upHV_eq (avx2 : Bool) (g up dn : Nat → Int) (n : Nat) (hn : 2 < n) (hg : ∀ i, Sample (g i))
    (hu : ∀ i, Sample (up i)) (hd : ∀ i, Sample (dn i)) (scratch out : List Int)
    (hs : scratch.length = 2 * n) (ho : out.length = 4 * n) :
    upHV avx2 (plane g 0 n) (plane up 0 n) (plane dn 0 n) scratch out =
      some (plane (hSpec (fun i => tri (g i) (up i)) n) 0 (2 * n) ++
        plane (hSpec (fun i => tri (g i) (dn i)) n) 0 (2 * n)) := by
  unfold upHV
  rw [plane_length, if_pos (by omega), upV_eq avx2 g up dn n scratch hs]
  simp only [List.length_append, plane_length]
  rw [show (n + n) / 2 = n by omega, List.take_left' (plane_length _ _ _),
    List.drop_left' (plane_length _ _ _), ho, show 4 * n / 2 = 2 * n by omega,
    upH_eq avx2 _ n hn (fun i => tri_sample _ _ (hg i) (hu i)) _ (by rw [List.length_take]; omega),
    upH_eq avx2 _ n hn (fun i => tri_sample _ _ (hg i) (hd i)) _ (by rw [List.length_drop]; omega)]

/-! ### Generic -/

theorem genLoop_eq (g : Nat → Int) (d : Nat) : ∀ (n s : Nat) (out : List Int), out.length = n * d →
    genLoop d (plane g s n) out = (List.range' s n).flatMap fun i => List.replicate d (g i) := by
  intro n
  induction n with
  | zero =>
    intro s out h
    rw [Nat.zero_mul, List.length_eq_zero_iff] at h
    subst h; rfl
  | succ n ih =>
    intro s out h
    rw [Nat.succ_mul] at h
    rw [plane_cons]
    unfold genLoop
    rw [if_pos (by omega), ih (s + 1) _ (by rw [List.length_drop]; omega), List.range'_succ,
      List.flatMap_cons]

theorem flatMap_replicate (g : Nat → Int) (d : Nat) (hd : 0 < d) (n s : Nat) :
    (List.range' s n).flatMap (fun i => List.replicate d (g i)) =
      plane (fun k => g (k / d)) (s * d) (n * d) := by
  induction n generalizing s with
  | zero => rw [Nat.zero_mul]; rfl
  | succ n ih =>
    rw [List.range'_succ, List.flatMap_cons, ih, Nat.succ_mul n d, Nat.add_comm (n * d) d,
      ← plane_append, Nat.succ_mul]
    congr 1
    have : plane (fun k => g (k / d)) (s * d) d = plane (fun _ => g s) (s * d) d := by
      apply plane_congr
      intro i h1 h2
      have : i / d = s := by
        apply Nat.div_eq_of_lt_le h1
        rw [Nat.succ_mul]; exact h2
      rw [this]
    rw [this]
    unfold plane
    rw [List.map_const', List.length_range']

theorem upGeneric_eq (g : Nat → Int) (n d : Nat) (hn : 0 < n) (hd : 0 < d) (out : List Int)
    (ho : out.length = n * d) :
    upGeneric (plane g 0 n) out = some (plane (fun k => g (k / d)) 0 (n * d)) := by
  unfold upGeneric
  rw [plane_length, if_neg (by omega), ho, Nat.mul_div_cancel_left _ hn]
  simp only
  rw [if_pos hd, genLoop_eq g d n 0 out ho, flatMap_replicate g d hd, Nat.zero_mul]

end Zune.Jpeg
