import Verif.Jpeg.PortableLemmas

/-!
# zune-jpeg: portable SIMD upsampling (properties)
-/

namespace Zune.Jpeg

/-- **C122.** Horizontal upsampling of a row of at least three samples is that of the scalar function, which is the triangle filter. -/
theorem c122_horizontal (g : Nat → Int) (n : Nat) (hn : 2 < n) (hg : ∀ i, Sample (g i)) (out : List Int)
    (ho : out.length = 2 * n) :
    upHPort (plane g 0 n) out = upHScalar (plane g 0 n) out ∧
      upHPort (plane g 0 n) out = some (plane (tent g (n - 1)) 0 (2 * n)) := by
  have h := (upHPort_eq g n hn hg out ho).trans (upHScalar_eq g n hn hg out ho).symm
  exact ⟨h, h.trans (c47_horizontal false g n hn hg out ho)⟩

example : (2 < 40 ∧ ∀ i, Sample (ramp 1 i)) ∧
    (upHPort (plane (ramp 1) 0 40) (List.replicate 80 9)).map (·.take 5) = some [31, 33, 36, 43, 54] :=
  ⟨⟨by decide, fun i => ramp_sample 1 i⟩, by decide +kernel⟩

/-- **C122.** So is vertical upsampling, and for samples outside 0..255 too. -/
theorem c122_vertical (g near far : Nat → Int) (n : Nat) (out : List Int) (ho : out.length = 2 * n) :
    upVPort (plane g 0 n) (plane near 0 n) (plane far 0 n) out = upVScalar (plane g 0 n) (plane near 0 n) (plane far 0 n) out :=
  (upVPort_eq g near far n out ho).trans (upVScalar_eq g near far n out ho).symm

example : (upVPort (plane (ramp 1) 0 37) (plane (ramp 2) 0 37) (plane (ramp 3) 0 37) (List.replicate 74 0)).map
    (·.take 3) = some [39, 46, 67] := by decide +kernel

/-- **C122.** And so is upsampling in both directions. -/
theorem c122_both (g near far : Nat → Int) (n : Nat) (hn : 2 < n) (hg : ∀ i, Sample (g i))
    (h1 : ∀ i, Sample (near i)) (h2 : ∀ i, Sample (far i)) (scratch out : List Int)
    (hs : scratch.length = 2 * n) (ho : out.length = 4 * n) :
    upHVPort (plane g 0 n) (plane near 0 n) (plane far 0 n) scratch out =
        upHV false (plane g 0 n) (plane near 0 n) (plane far 0 n) scratch out ∧
      upHVPort (plane g 0 n) (plane near 0 n) (plane far 0 n) scratch out =
        some (plane (tent (fun i => (3 * g i + near i + 2) / 4) (n - 1)) 0 (2 * n) ++
          plane (tent (fun i => (3 * g i + far i + 2) / 4) (n - 1)) 0 (2 * n)) := by
  have h : upHVPort (plane g 0 n) (plane near 0 n) (plane far 0 n) scratch out =
      some (plane (hSpec (fun i => tri (g i) (near i)) n) 0 (2 * n) ++ plane (hSpec (fun i => tri (g i) (far i)) n) 0 (2 * n)) := by
    unfold upHVPort
    rw [plane_length, if_pos (by omega), upVPort_eq g near far n scratch hs]
    simp only [List.length_append, plane_length]
    rw [show (n + n) / 2 = n by omega, List.take_left' (plane_length _ _ _),
      List.drop_left' (plane_length _ _ _), ho, show 4 * n / 2 = 2 * n by omega,
      upHPort_eq _ n hn (fun i => tri_sample _ _ (hg i) (h1 i)) _ (by rw [List.length_take]; omega),
      upHPort_eq _ n hn (fun i => tri_sample _ _ (hg i) (h2 i)) _ (by rw [List.length_drop]; omega)]
  have e := h.trans (upHV_eq false g near far n hn hg h1 h2 scratch out hs ho).symm
  exact ⟨e, e.trans (c47_both false g near far n hn hg h1 h2 scratch out hs ho)⟩

example : (upHVPort (plane (ramp 1) 0 37) (plane (ramp 2) 0 37) (plane (ramp 3) 0 37) (List.replicate 74 0)
    (List.replicate 148 0)).map (·.take 4) = some [39, 41, 44, 51] ∧ ∀ k i, Sample (ramp k i) :=
  ⟨by decide +kernel, ramp_sample⟩

end Zune.Jpeg
