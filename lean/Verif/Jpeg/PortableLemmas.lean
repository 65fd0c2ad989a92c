import Verif.Jpeg.PortableModel
import Verif.Jpeg.UpsampleProps

/-!
# zune-jpeg: portable SIMD upsampling (lemmas)
-/

namespace Zune.Jpeg

theorem hPort16_eq (g : Nat → Int) (s : Nat) :
    hPort16 (plane g s 18) = plane (two (fun i => tri (g i) (g (i - 1)))
      (fun i => tri (g i) (g (i + 1)))) (2 * (s + 1)) 32 := by
  rw [← flatMap_two _ _ (s + 1) 16]
  simp only [hPort16, plane, List.range'_succ, List.range'_zero, List.map_cons, List.map_nil, interLo, interHi, List.take_succ_cons,
    List.take_zero, List.drop_succ_cons, List.drop_zero, List.zipWith_cons_cons, List.zipWith_nil_right, List.flatten_cons,
    List.flatten_nil, List.flatMap_cons, List.flatMap_nil, List.cons_append, List.nil_append, List.append_nil, Nat.add_sub_cancel]
  simp only [tri, Int.mul_comm _ (3 : Int)]

theorem hPortLoop_eq (g : Nat → Int) : ∀ (fuel m s : Nat) (out : List Int), m < fuel →
    out.length = 2 * (m + 1) →
    ∃ k, 16 * k ≤ m ∧ m < 16 * k + 16 ∧ hPortLoop fuel (plane g s (m + 2)) out =
      plane (two (fun i => tri (g i) (g (i - 1))) (fun i => tri (g i) (g (i + 1)))) (2 * (s + 1)) (32 * k)
        ++ out.drop (32 * k) := by
  intro fuel
  induction fuel with
  | zero => intro m s out h; omega
  | succ fuel ih =>
    intro m s out h ho
    unfold hPortLoop
    rw [plane_length]
    by_cases hm : 16 ≤ m
    · rw [if_pos (by omega), plane_take _ _ _ _ (by omega), hPort16_eq, plane_drop,
        show m + 2 - 16 = (m - 16) + 2 by omega]
      obtain ⟨k, h1, h2, e⟩ := ih (m - 16) (s + 16) (out.drop 32) (by omega)
        (by rw [List.length_drop]; omega)
      refine ⟨k + 1, by omega, by omega, ?_⟩
      rw [e, ← List.append_assoc, show 2 * (s + 16 + 1) = 2 * (s + 1) + 32 by omega, plane_append,
        List.drop_drop, show 32 * (k + 1) = 32 + 32 * k by omega]
    · rw [if_neg (by omega)]
      exact ⟨0, by omega, by omega, rfl⟩

theorem upHPort_eq (g : Nat → Int) (n : Nat) (hn : 2 < n) (hg : ∀ i, Sample (g i)) (out : List Int)
    (ho : out.length = 2 * n) :
    upHPort (plane g 0 n) out = some (plane (hSpec g n) 0 (2 * n)) := by
  unfold upHPort
  rw [plane_length, if_pos (by omega)]
  by_cases hs : n < 18
  · rw [if_pos hs]
    exact upHScalar_eq g n hn hg out ho
  rw [if_neg hs]
  have := hEnds g n hn hg out ho
    (fun o => hPortRest (plane g 0 n) (o.take 2 ++ hPortLoop (n + 1) (plane g 0 n) (o.drop 2))) (by
      intro a b o hl
      obtain ⟨m, rfl⟩ : ∃ m, n = m + 2 := ⟨n - 2, by omega⟩
      obtain ⟨k, h1, h2, e⟩ := hPortLoop_eq g (m + 2 + 1) m 0 o (by omega) (by omega)
      refine ⟨o.drop (2 * m), by rw [List.length_drop]; omega, ?_⟩
      show hPortRest _ ([a, b] ++ hPortLoop _ _ o) = _
      rw [e]
      have hq : hPort16 ((plane g 0 (m + 2)).drop (m + 2 - 18)) = plane (two (fun i => tri (g i) (g (i - 1))) (fun i => tri (g i) (g (i + 1)))) (2 * (m - 16 + 1)) 32 := by
        rw [plane_drop, show m + 2 - (m + 2 - 18) = 18 by omega, hPort16_eq,
          show 0 + (m + 2 - 18) + 1 = m - 16 + 1 by omega]
      generalize two (fun i => tri (g i) (g (i - 1))) (fun i => tri (g i) (g (i + 1))) = q at *
      have hlen : ([a, b] ++ (plane q (2 * (0 + 1)) (32 * k) ++ o.drop (32 * k))).length = 2 * (m + 2) := by
        simp only [List.length_cons, List.length_append, plane_length, List.length_nil, List.length_drop]
        omega
      unfold hPortRest
      rw [plane_length, hlen, if_pos (by omega)]
      rw [hq]
      have t1 : ([a, b] ++ (plane q (2 * (0 + 1)) (32 * k) ++ o.drop (32 * k))).take (2 * (m + 2) - 2 - 32) =
          [a, b] ++ plane q 2 (2 * m - 32) := by
        rw [show 2 * (m + 2) - 2 - 32 = 2 * m - 32 + 1 + 1 by omega]
        show a :: b :: (plane q (2 * (0 + 1)) (32 * k) ++ o.drop (32 * k)).take (2 * m - 32) = _
        rw [List.take_append_of_le_length (by rw [plane_length]; omega), plane_take _ _ _ _ (by omega)]
        rfl
      have t2 : ([a, b] ++ (plane q (2 * (0 + 1)) (32 * k) ++ o.drop (32 * k))).drop (2 * (m + 2) - 2) =
          o.drop (2 * m) := by
        rw [show 2 * (m + 2) - 2 = 2 * m + 1 + 1 by omega]
        show (plane q (2 * (0 + 1)) (32 * k) ++ o.drop (32 * k)).drop (2 * m) = _
        rw [List.drop_append, List.drop_eq_nil_of_le (by rw [plane_length]; omega), plane_length,
          List.nil_append, List.drop_drop, show 32 * k + (2 * m - 32 * k) = 2 * m by omega]
      rw [t1, t2, List.append_assoc [a, b], show 2 * (m - 16 + 1) = 2 + (2 * m - 32) by omega,
        plane_append, show 2 * m - 32 + 32 = 2 * (m + 2 - 2) by omega]
      rfl)
  rw [← this]
  cases hFirst (plane g 0 n) out <;> rfl

theorem vPort16_eq (g f : Nat → Int) (s n : Nat) :
    vPort16 (plane g s n) (plane f s n) = plane (fun i => tri (g i) (f i)) s n := by
  unfold vPort16 plane
  rw [zipWith_map_same]
  apply List.map_congr_left
  intro i _
  unfold tri
  rw [Int.mul_comm]

theorem vPortLoop_eq (g f : Nat → Int) : ∀ (fuel n s : Nat) (out : List Int), n < fuel →
    out.length = n →
    ∃ k, 16 * k ≤ n ∧ n < 16 * k + 16 ∧ vPortLoop fuel (plane g s n) (plane f s n) out =
      plane (fun i => tri (g i) (f i)) s (16 * k) ++ out.drop (16 * k) := by
  intro fuel
  induction fuel with
  | zero => intro n s out h; omega
  | succ fuel ih =>
    intro n s out h ho
    unfold vPortLoop
    rw [plane_length, plane_length]
    by_cases hm : 16 ≤ n
    · rw [if_pos (by omega), plane_take _ _ _ _ hm, plane_take _ _ _ _ hm, vPort16_eq, plane_drop,
        plane_drop]
      obtain ⟨k, h1, h2, e⟩ := ih (n - 16) (s + 16) (out.drop 16) (by omega)
        (by rw [List.length_drop]; omega)
      refine ⟨k + 1, by omega, by omega, ?_⟩
      rw [e, ← List.append_assoc, plane_append, List.drop_drop,
        show 16 * (k + 1) = 16 + 16 * k by omega]
    · rw [if_neg (by omega)]
      exact ⟨0, by omega, by omega, rfl⟩

theorem vPortRow_eq (g f : Nat → Int) (n : Nat) (hn : 16 ≤ n) (out : List Int) (ho : out.length = n) :
    vPortRest (plane g 0 n) (plane f 0 n) (vPortLoop (n + 1) (plane g 0 n) (plane f 0 n) out) =
      plane (fun i => tri (g i) (f i)) 0 n := by
  obtain ⟨k, h1, h2, e⟩ := vPortLoop_eq g f (n + 1) n 0 out (by omega) ho
  rw [e]
  have hl : (plane (fun i => tri (g i) (f i)) 0 (16 * k) ++ out.drop (16 * k)).length = n := by
    rw [List.length_append, plane_length, List.length_drop]; omega
  unfold vPortRest
  rw [plane_length, plane_length, hl, if_pos (by omega), plane_drop, plane_drop,
    show n - (n - 16) = 16 by omega, vPort16_eq, List.take_append_of_le_length
      (by rw [plane_length]; omega), plane_take _ _ _ _ (by omega), plane_append,
    show n - 16 + 16 = n by omega]

theorem upVPort_eq (g up dn : Nat → Int) (n : Nat) (out : List Int) (ho : out.length = 2 * n) :
    upVPort (plane g 0 n) (plane up 0 n) (plane dn 0 n) out =
      some (plane (fun i => tri (g i) (up i)) 0 n ++ plane (fun i => tri (g i) (dn i)) 0 n) := by
  unfold upVPort
  rw [plane_length, plane_length, plane_length, if_pos ⟨by omega, rfl, rfl⟩]
  by_cases hs : n < 16
  · rw [if_pos hs, upVScalar_eq g up dn n out ho]
  · rw [if_neg hs, ho, show 2 * n / 2 = n by omega]
    simp only
    rw [vPortRow_eq g up n (by omega) _ (by rw [List.length_take]; omega),
      vPortRow_eq g dn n (by omega) _ (by rw [List.length_drop]; omega)]

end Zune.Jpeg
