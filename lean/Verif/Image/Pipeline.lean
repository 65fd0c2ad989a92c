/- Property C40: pipelines. -/
import Verif.Image.PipelineModel

namespace Zune.Pipe
variable {I E : Type}

/-- The operations applied one after the other, every one exactly once, in queue order; the first failure wins. -/
def Spec.applyAll (ops : List (I → I × Except E Unit)) (i : I) : Except E I :=
  ops.foldlM (fun i op => match op i with | (i', .ok _) => .ok i' | (_, .error e) => .error e) i

theorem runOps_spec (ops : List (I → I × Except E Unit)) (i r : I) (h : Spec.applyAll ops i = .ok r) :
    runOps ops i = (r, .ok ()) := by
  induction ops generalizing i with
  | nil => cases h; rfl
  | cons op ops ih =>
    unfold Spec.applyAll at h
    rw [List.foldlM_cons] at h
    unfold runOps
    rcases ho : op i with ⟨i', _ | _⟩
    · simp [ho, bind, Except.bind] at h
    · simp only [ho, bind, Except.bind] at h
      exact ih i' h

theorem runImages_spec (ops : List (I → I × Except E Unit)) (is rs : List I) (hne : is ≠ [])
    (h : is.mapM (Spec.applyAll ops) = .ok rs) : runImages ops is = (rs, .ok (), true) := by
  induction is generalizing rs with
  | nil => exact absurd rfl hne
  | cons i is ih =>
    rw [List.mapM_cons] at h
    cases hi : Spec.applyAll ops i with
    | error e => simp [hi, bind, Except.bind] at h
    | ok r =>
      cases his : is.mapM (Spec.applyAll ops) with
      | error e => simp [hi, his, bind, Except.bind] at h
      | ok rs' =>
        simp only [hi, his, bind, Except.bind, pure, Except.pure, Except.ok.injEq] at h
        subst h
        unfold runImages
        rw [runOps_spec ops i r hi]
        cases is with
        | nil => cases his; rfl
        | cons j js => simp [ih rs' (by simp) his]

/-- **C40** for pipelines with a decoder: when the decoder and all operations succeed, running a fresh pipeline to its end runs
    every operation once, in order, on every image (those added by hand and the decoded one), finishes, and running it again
    changes nothing.  Without a decoder the code fails: `c40_images_only_fails`. -/
theorem c40_runs_all_once_partial (imgs : List I) (dec : I) (ops : List (I → I × Except E Unit)) (rs : List I)
    (h : (imgs ++ [dec]).mapM (Spec.applyAll ops) = .ok rs) :
    let p : Pipeline I E := { state := some .initialized, decode := some (.ok dec), image := imgs, operations := ops }
    let q : Pipeline I E := { state := none, decode := none, image := rs, operations := ops }
    p.advanceToEnd = (q, .ok ()) ∧ q.advanceToEnd = (q, .ok ()) := by
  intro p q
  have hr := runImages_spec ops (imgs ++ [dec]) rs (by simp) h
  have hq : q.advanceToEnd = (q, .ok ()) := by unfold Pipeline.advanceToEnd; rfl
  refine ⟨?_, hq⟩
  have s1 : p.advance = ({ p with state := some .decode }, .ok ()) := rfl
  have s2 : Pipeline.advance { p with state := some .decode } =
    ({ state := some .operations, decode := none, image := imgs ++ [dec], operations := ops }, .ok ()) := rfl
  have s3 : Pipeline.advance { state := some .operations, decode := none, image := imgs ++ [dec], operations := ops } =
      (({ state := some .encode, decode := none, image := rs, operations := ops } : Pipeline I E), .ok ()) := by
    unfold Pipeline.advance
    simp only [hr]
    simp [PState.next]
  have s4 : Pipeline.advance { state := some .encode, decode := none, image := rs, operations := ops } =
    (({ state := some .finished, decode := none, image := rs, operations := ops } : Pipeline I E), .ok ()) := rfl
  have s5 : Pipeline.advance { state := some .finished, decode := none, image := rs, operations := ops } = (q, .ok ()) := rfl
  rw [Pipeline.advanceToEnd, dif_pos (by rfl)]
  split
  · rename_i p' u he; rw [s1] at he; obtain ⟨rfl, _⟩ := Prod.mk.inj he
    rw [Pipeline.advanceToEnd, dif_pos (by rfl)]
    split
    · rename_i p' u he; rw [s2] at he; obtain ⟨rfl, _⟩ := Prod.mk.inj he
      rw [Pipeline.advanceToEnd, dif_pos (by rfl)]
      split
      · rename_i p' u he; rw [s3] at he; obtain ⟨rfl, _⟩ := Prod.mk.inj he
        rw [Pipeline.advanceToEnd, dif_pos (by rfl)]
        split
        · rename_i p' u he; rw [s4] at he; obtain ⟨rfl, _⟩ := Prod.mk.inj he
          rw [Pipeline.advanceToEnd, dif_pos (by rfl)]
          split
          · rename_i p' u he; rw [s5] at he; obtain ⟨rfl, _⟩ := Prod.mk.inj he
            exact hq
          · rename_i p' e he; rw [s5] at he; simp at he
        · rename_i p' e he; rw [s4] at he; simp at he
      · rename_i p' e he; rw [s3] at he; simp at he
    · rename_i p' e he; rw [s2] at he; simp at he
  · rename_i p' e he; rw [s1] at he; simp at he

/-- Building a pipeline with the public functions gives the kind of pipeline the theorem is about. -/
theorem c40_built (imgs : List I) (dec : I) (ops : List (I → I × Except E Unit)) :
    ops.foldl Pipeline.chainOperations ((imgs.foldl Pipeline.chainImage Pipeline.new).chainDecoder (.ok dec)) =
      { state := some .initialized, decode := some (.ok dec), image := imgs, operations := ops } := by
  have h1 : ∀ (l : List I) (p : Pipeline I E), l.foldl Pipeline.chainImage p = { p with image := p.image ++ l } := by
    intro l
    induction l with
    | nil => intro p; simp
    | cons a l ih => intro p; rw [List.foldl_cons, ih]; simp [Pipeline.chainImage]
  have h2 : ∀ (l : List (I → I × Except E Unit)) (p : Pipeline I E),
      l.foldl Pipeline.chainOperations p = { p with operations := p.operations ++ l } := by
    intro l
    induction l with
    | nil => intro p; simp
    | cons a l ih => intro p; rw [List.foldl_cons, ih]; simp [Pipeline.chainOperations]
  rw [h1, h2]
  simp [Pipeline.new, Pipeline.chainDecoder]

/-- **C40, negation**: a pipeline that holds images but no decoder always fails with "no image", and none of its operations is
    run. -/
theorem c40_images_only_fails (i : I) (imgs : List I) (ops : List (I → I × Except E Unit)) :
    ∃ q, Pipeline.advanceToEnd { state := some .initialized, decode := none, image := i :: imgs, operations := ops } =
      (q, .error .noImageForOperations) ∧ q.image = i :: imgs := by
  refine ⟨{ state := some .decode, decode := none, image := i :: imgs, operations := ops }, ?_, rfl⟩
  rw [Pipeline.advanceToEnd, dif_pos (by rfl)]
  split
  · rename_i p' u he
    obtain ⟨rfl, _⟩ := Prod.mk.inj (show (_, _) = (p', Except.ok u) from he)
    rw [Pipeline.advanceToEnd, dif_pos (by rfl)]
    split
    · rename_i p' u he; simp [Pipeline.advance, PState.next] at he
    · rename_i p' e he
      simp only [Pipeline.advance, PState.next, List.isEmpty_cons, Bool.false_eq_true, if_false, Prod.mk.injEq,
        Except.error.injEq] at he
      obtain ⟨rfl, rfl⟩ := he
      rfl
  · rename_i p' e he; simp [Pipeline.advance] at he

/-- **C40, negation (error recovery)**: when an operation fails on the second image the pipeline has already moved on; running
    it again reports success although the operation was never completed on that image. -/
theorem c40_error_skips_images :
    let op : Nat → Nat × Except Unit Unit := fun i => if i = 0 then (0, .error ()) else (i + 10, .ok ())
    let p : Pipeline Nat Unit := { state := some .operations, decode := none, image := [1, 0, 2], operations := [op] }
    p.advance.2 = .error (.other ()) ∧ p.advance.1.image = [11, 0, 2] ∧ p.advance.1.state = some .encode ∧
      p.advance.1.advance.2 = .ok () ∧ p.advance.1.advance.1.image = [11, 0, 2] := by
  refine ⟨rfl, rfl, rfl, rfl, rfl⟩

/-- Two images, one of them decoded, and two operations which do not commute. -/
example : ([3] ++ [5]).mapM (Spec.applyAll (E := Unit) [fun i => (i + 1, .ok ()), fun i => (i * 2, .ok ())]) = .ok [8, 12] := rfl

end Zune.Pipe
