import Verif.Jpeg.NeonLemmas

/-!
# zune-jpeg: C119

Property theorems about the NEON kernels: they compute what the scalar functions compute.
-/

namespace Zune.Jpeg

/-! ## Inverse transform -/

/-- **C119.** The NEON transform stores exactly the samples of the scalar one and leaves its input alone, for every block of
coefficients. -/
theorem c119_idct (v : Block) : (idctNeon v).rows = (idctInt v).rows ∧ (idctNeon v).mem = v := by
  unfold idctNeon idctInt
  rw [allZero_dcOnly]
  split
  · exact ⟨rfl, rfl⟩
  · exact ⟨funext fun r => neon_rows v r, rfl⟩

example : (idctNeon sampleBlock).rows 0 0 = 162 := by
  rw [(c119_idct _).1]
  decide +kernel

/-- **C119.** On aarch64 too the transform chosen for a block stores the samples of the full 8x8 transform, under the condition of
`c45_selected_partial` on a lone DC value. -/
theorem c119_selected_partial (len : Nat) (v : Block) (hs : Short len v) (hd : dcOnly v = true → DcFits (v 0 0)) :
    (select neonIsa len v).rows = (idctFull v).rows := by
  rw [← c45_selected_partial false len v hs hd]
  unfold select
  split
  · rfl
  split
  · rfl
  exact (c119_idct v).1

example : Short 3 sampleBlock ∧ (dcOnly sampleBlock = true → DcFits (sampleBlock 0 0)) ∧ sampleBlock 0 1 ≠ 0 := by
  refine ⟨?_, fun h => absurd h (by decide), by decide⟩
  intro i k hk he h3 hi
  have : ∀ (i : Fin 64) (k : Fin 64), unZigzag[i.val]? = some k.val → 3 ≤ i.val →
      coef sampleBlock k.val k.isLt = 0 := by decide +kernel
  exact this ⟨i, hi⟩ ⟨k, hk⟩ he h3

/-- **C119.** And each block is decoded into a buffer of zeroes, whatever blocks came before. -/
theorem c119_clean_buffer (tmp : Block) (jobs : List (Option (Nat × (Block → Block))))
    (hj : ∀ len dec, some (len, dec) ∈ jobs → Writes len dec) (r c : Fin 8) :
    let st := jobs.foldl (blockStep neonIsa) (true, tmp)
    clobber st.1 st.2 r c = 0 := by
  have step : ∀ (st : Bool × Block) (job : Option (Nat × (Block → Block))), (∀ len dec, job = some (len, dec) → Writes len dec) →
      (∀ r c, clobber st.1 st.2 r c = 0) →
      ∀ r c, clobber (blockStep neonIsa st job).1 (blockStep neonIsa st job).2 r c = 0 := by
    intro st job hj hst r c
    have h := clean_step false st job hj hst r c
    match job with
    | none => exact h
    | some (len, dec) =>
      by_cases h10 : 10 < len
      · simp [blockStep, clobber, h10]
      · have e : blockStep neonIsa st (some (len, dec)) = blockStep (chooseIdct false) st (some (len, dec)) := by
          simp only [blockStep, select]
          by_cases h1 : len ≤ 1
          · rw [if_pos h1, if_pos h1]
            rfl
          · rw [if_neg h1, if_neg h1, if_pos (by omega), if_pos (by omega)]
            rfl
        rw [e]
        exact h
  have all : ∀ (jobs : List (Option (Nat × (Block → Block)))) (st : Bool × Block),
      (∀ len dec, some (len, dec) ∈ jobs → Writes len dec) → (∀ r c, clobber st.1 st.2 r c = 0) →
      ∀ r c, clobber (jobs.foldl (blockStep neonIsa) st).1 (jobs.foldl (blockStep neonIsa) st).2 r c = 0 := by
    intro jobs
    induction jobs with
    | nil => intro st _ h; exact h
    | cons j jobs ih =>
      intro st hj h
      apply ih
      · exact fun len dec hm => hj len dec (List.mem_cons_of_mem _ hm)
      · exact step st j (fun len dec e => hj len dec (by rw [e]; simp)) h
  exact all jobs (true, tmp) hj (fun r c => by simp [clobber]) r c

/-- The hypotheses hold of a block with two coefficients after one that is skipped. -/
example : ∀ len dec, some (len, dec) ∈ [none, some (2, twoStores)] → Writes len dec := by
  intro len dec h
  simp only [List.mem_cons, reduceCtorEq, Option.some.injEq, Prod.mk.injEq, List.not_mem_nil, or_false, false_or] at h
  obtain ⟨rfl, rfl⟩ := h
  intro v r c h
  have h0 := h 0 (by omega) (by omega)
  have h1 := h 1 (by omega) (by omega)
  have h0 : (0 : Nat) ≠ 8 * r.val + c.val := fun e => h0 (by rw [← e]; rfl)
  have h1 : (1 : Nat) ≠ 8 * r.val + c.val := fun e => h1 (by rw [← e]; rfl)
  unfold twoStores
  rw [if_neg, if_neg]
  · rintro ⟨rfl, rfl⟩; exact h1 rfl
  · rintro ⟨rfl, rfl⟩; exact h0 rfl

/-! ## Colour conversion -/

/-- **C119.** The NEON conversion of sixteen pixels writes exactly the bytes of the scalar one, whatever the sixteen-bit samples: its sums
never wrap around and its saturating shifts are the clamp. (The AVX2 one needs samples in 0..255, see `c46_avx2_outside`.) -/
theorem c119_color (alpha : Bool) (y cb cr : Nat → Int) (hy : ∀ i, InI16 (y i)) (s : Nat) :
    conv16Neon alpha (plane y s 16) (plane cb s 16) (plane cr s 16) =
      conv16Scalar (if alpha then .rgba else .rgb) (plane y s 16) (plane cb s 16) (plane cr s 16) := by
  rw [conv16Neon_eq alpha y cb cr hy s, conv16Scalar_eq]

example : (∀ i : Nat, InI16 (if i % 2 = 0 then -32768 else 32767)) ∧
    (conv16Neon false (plane (fun i => 16 * i) 0 16) (plane (fun i => 17 * i) 0 16) (plane (fun i => 255 - i) 0 16)).take 6 =
      [178, 0, 0, 193, 0, 0] := by
  refine ⟨fun i => ?_, by decide +kernel⟩
  unfold InI16
  split <;> omega

/-- **C119.** A line of samples becomes, on aarch64, the line the formulas of the scalar code give pixel by pixel, in each of the
four layouts and for each width. -/
theorem c119_line (l : Layout) (width padded : Nat) (hw : 0 < width) (hp : width ≤ padded) (y cb cr : Nat → Int)
    (hs : ∀ i, Sample (y i) ∧ Sample (cb i) ∧ Sample (cr i)) (out : List UInt8) (ho : out.length = width * l.n) :
    ycbcrLinesNeon l width padded (plane y 0 padded) (plane cb 0 padded) (plane cr 0 padded) out =
      some ((List.range width).flatMap fun i => l.store (ycbcrPixel (y i) (cb i) (cr i))) := by
  have hn : l.n ≤ 4 ∧ 0 < l.n := by cases l <;> decide
  have hst : ∀ p, (l.store p).length = l.n := by intro p; cases l <;> rfl
  have hb : width ≤ width * l.n := Nat.le_mul_of_pos_right width hn.2
  have hk : ∀ y cb cr : Nat → Int, (∀ i, Sample (y i) ∧ Sample (cb i) ∧ Sample (cr i)) → ∀ s,
      conv16OnNeon l (plane y s 16) (plane cb s 16) (plane cr s 16) =
        (List.range' s 16).flatMap fun i => l.store (ycbcrPixel (y i) (cb i) (cr i)) := by
    intro y cb cr hs s
    have hy : ∀ i, InI16 (y i) := fun i => by
      have := (hs i).1
      unfold Sample at this
      unfold InI16
      omega
    cases l
    · exact conv16Neon_eq false y cb cr hy s
    · exact conv16Neon_eq true y cb cr hy s
    · exact conv16Scalar_eq .bgr y cb cr s 16
    · exact conv16Scalar_eq .bgra y cb cr s 16
  unfold ycbcrLinesNeon
  have := lineLoop_one (width * l.n) padded
    (fun p o => match p with
      | [y, cb, cr] => ycbcrBody (conv16OnNeon l) l.n width y cb cr o
      | _ => none) (out.length + 1) 0 [y, cb, cr] (by simp) out (by omega) (by omega) (by omega) (by omega)
  refine this.trans ?_
  have hbody := ycbcrBody_eq (conv16OnNeon l) l.n (fun a b c => l.store (ycbcrPixel a b c)) hn.1 hn.2
    (fun _ _ _ => hst _) hk width padded hp y cb cr hs (out.take (width * l.n)) (by rw [List.length_take]; omega)
  simp only [List.map_cons, List.map_nil, hbody, Option.map_some]
  rw [List.drop_eq_nil_of_le (by omega), List.append_nil]

example : ∀ i : Nat, Sample (((i * 7) % 256 : Nat) : Int) ∧ Sample 128 ∧ Sample 90 := by
  intro i
  unfold Sample
  omega

/-! ## Upsampling -/

/-- **C119.** Horizontal upsampling of a row of at least three samples is that of the scalar function, which is the triangle filter. -/
theorem c119_horizontal (g : Nat → Int) (n : Nat) (hn : 2 < n) (hg : ∀ i, Sample (g i)) (out : List Int)
    (ho : out.length = 2 * n) :
    upHNeon (plane g 0 n) out = upHScalar (plane g 0 n) out ∧
      upHNeon (plane g 0 n) out = some (plane (tent g (n - 1)) 0 (2 * n)) := by
  have h := (upHNeon_eq g n hn hg out ho).trans (upHScalar_eq g n hn hg out ho).symm
  exact ⟨h, h.trans (c47_horizontal false g n hn hg out ho)⟩

example : (2 < 20 ∧ ∀ i, Sample (ramp 1 i)) ∧
    (upHNeon (plane (ramp 1) 0 20) (List.replicate 40 9)).map (·.take 5) = some [31, 33, 36, 43, 54] :=
  ⟨⟨by decide, fun i => ramp_sample 1 i⟩, by decide +kernel⟩

/-- **C119.** So is vertical upsampling, and for samples outside 0..255 too. -/
theorem c119_vertical (g near far : Nat → Int) (n : Nat) (out : List Int) (ho : out.length = 2 * n) :
    upVNeon (plane g 0 n) (plane near 0 n) (plane far 0 n) out = upVScalar (plane g 0 n) (plane near 0 n) (plane far 0 n) out :=
  (upVNeon_eq g near far n out ho).trans (upVScalar_eq g near far n out ho).symm

example : (upVNeon (plane (ramp 1) 0 18) (plane (ramp 2) 0 18) (plane (ramp 3) 0 18) (List.replicate 36 0)).map
    (·.take 3) = some [39, 46, 67] := by decide +kernel

/-- **C119.** And so is upsampling in both directions. -/
theorem c119_both (g near far : Nat → Int) (n : Nat) (hn : 2 < n) (hg : ∀ i, Sample (g i))
    (h1 : ∀ i, Sample (near i)) (h2 : ∀ i, Sample (far i)) (scratch out : List Int)
    (hs : scratch.length = 2 * n) (ho : out.length = 4 * n) :
    upHVNeon (plane g 0 n) (plane near 0 n) (plane far 0 n) scratch out =
        upHV false (plane g 0 n) (plane near 0 n) (plane far 0 n) scratch out ∧
      upHVNeon (plane g 0 n) (plane near 0 n) (plane far 0 n) scratch out =
        some (plane (tent (fun i => (3 * g i + near i + 2) / 4) (n - 1)) 0 (2 * n) ++
          plane (tent (fun i => (3 * g i + far i + 2) / 4) (n - 1)) 0 (2 * n)) := by
  have h : upHVNeon (plane g 0 n) (plane near 0 n) (plane far 0 n) scratch out =
      some (plane (hSpec (fun i => tri (g i) (near i)) n) 0 (2 * n) ++ plane (hSpec (fun i => tri (g i) (far i)) n) 0 (2 * n)) := by
    unfold upHVNeon
    rw [plane_length, if_pos (by omega), upVNeon_eq g near far n scratch hs]
    simp only [List.length_append, plane_length]
    rw [show (n + n) / 2 = n by omega, List.take_left' (plane_length _ _ _),
      List.drop_left' (plane_length _ _ _), ho, show 4 * n / 2 = 2 * n by omega,
      upHNeon_eq _ n hn (fun i => tri_sample _ _ (hg i) (h1 i)) _ (by rw [List.length_take]; omega),
      upHNeon_eq _ n hn (fun i => tri_sample _ _ (hg i) (h2 i)) _ (by rw [List.length_drop]; omega)]
  have e := h.trans (upHV_eq false g near far n hn hg h1 h2 scratch out hs ho).symm
  exact ⟨e, e.trans (c47_both false g near far n hn hg h1 h2 scratch out hs ho)⟩

example : (upHVNeon (plane (ramp 1) 0 18) (plane (ramp 2) 0 18) (plane (ramp 3) 0 18) (List.replicate 36 0)
    (List.replicate 72 0)).map (·.take 4) = some [39, 41, 44, 51] ∧ ∀ k i, Sample (ramp k i) :=
  ⟨by decide +kernel, ramp_sample⟩

end Zune.Jpeg
