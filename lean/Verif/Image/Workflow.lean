/-
C137: what the command line program writes.
-/
import Verif.Image.WorkflowModel
import Verif.Image.Pipeline

namespace Zune.Workflow

open Zune.Guess (Format)
open Zune.Files (Features extension encoderForExtension hasEncoder)
open Zune.Pipe (Pipeline)

variable {I E : Type}

theorem hasEncoder_of {ft : Features} {ext : String} {f : Format} (h : encoderForExtension ft ext = some f) : hasEncoder ft f = true := by
  unfold encoderForExtension at h
  repeat' (split at h)
  all_goals first
    | (have := Option.some.inj h; subst this; simpa [hasEncoder])
    | simp at h

theorem mem_formats {ft : Features} {outs : List (List Char)} {f : Format} (h : f ∈ formats ft outs) : hasEncoder ft f = true := by
  obtain ⟨n, _, hn⟩ := List.mem_filterMap.1 h
  unfold formatOf at hn
  split at hn
  · simp at hn
  · exact hasEncoder_of hn

theorem writeAll_eq (ft : Features) (enc : Format → I → Option (List UInt8)) (name : List Char) (b : Format → List UInt8) (r : I) :
    ∀ (fs : List Format) (f : Format) (d : Disk), (∀ g ∈ fs ++ [f], hasEncoder ft g = true ∧ enc g r = some (b g)) →
      writeAll ft enc name ((fs ++ [f]).map fun g => (g, r)) d = (true, Function.update d name (some (b f)))
  | [], f, d, h => by
    have := h f (by simp)
    simp [writeAll, this.1, this.2]
  | g :: fs, f, d, h => by
    have hg := h g (by simp)
    have ih := writeAll_eq ft enc name b r fs f (Function.update d name (some (b g))) fun x hx => h x (by simp at hx ⊢; tauto)
    simp only [List.cons_append, List.map_cons, writeAll, hg.1, hg.2, if_true]
    rw [ih, Function.update_idem]

theorem writeOuts_eq (ft : Features) (enc : Format → I → Option (List UInt8)) (b : Format → List UInt8) (r : I) (fs : List Format) (f : Format)
    (h : ∀ g ∈ fs ++ [f], hasEncoder ft g = true ∧ enc g r = some (b g)) :
    ∀ (outs : List (List Char)) (d : Disk), ∃ d', writeOuts ft enc ((fs ++ [f]).map fun g => (g, r)) outs d = (true, d') ∧
      ∀ n, (n ∈ outs ∧ extension n ≠ none → d' n = some (b f)) ∧ (¬ (n ∈ outs ∧ extension n ≠ none) → d' n = d n)
  | [], d => ⟨d, rfl, by simp⟩
  | name :: outs, d => by
    cases hx : extension name with
    | none =>
      obtain ⟨d', e, hd⟩ := writeOuts_eq ft enc b r fs f h outs d
      refine ⟨d', by simp only [writeOuts, hx]; exact e, ?_⟩
      intro n
      have := hd n
      by_cases hn : n = name
      · subst hn
        simp only [hx, ne_eq, not_true, and_false, not_false_iff, forall_true_left, false_imp_iff, true_and] at this ⊢
        exact this
      · simpa [hn] using this
    | some x =>
      obtain ⟨d', e, hd⟩ := writeOuts_eq ft enc b r fs f h outs (Function.update d name (some (b f)))
      refine ⟨d', by simp only [writeOuts, hx, writeAll_eq ft enc name b r fs f d h]; exact e, ?_⟩
      intro n
      have := hd n
      by_cases hn : n = name
      · subst hn
        refine ⟨fun _ => ?_, fun hh => absurd ⟨by simp, by simp [hx]⟩ hh⟩
        by_cases hm : n ∈ outs
        · exact this.1 ⟨hm, by simp [hx]⟩
        · rw [this.2 (fun hh => hm hh.1), Function.update_self]
      · rw [Function.update_of_ne hn] at this
        simpa [hn] using this

theorem images_eq (stdin : Bool) (i r : I) (ops : List (I → I × Except E Unit))
    (h : (if stdin then .ok i else Pipe.Spec.applyAll ops i) = Except.ok r) :
    ∃ p, (pipeline stdin (.ok i) ops).advanceToEnd = (p, .ok ()) ∧ p.image = [r] := by
  have hb : ∀ (l : List (I → I × Except E Unit)) (p : Pipeline I E), l.foldl Pipeline.chainOperations p = { p with operations := p.operations ++ l } := by
    intro l
    induction l with
    | nil => intro p; simp
    | cons a l ih => intro p; rw [List.foldl_cons, ih]; simp [Pipeline.chainOperations]
  cases stdin with
  | true =>
    have hr : i = r := by simpa using h
    subst hr
    have := (Pipe.c40_runs_all_once_partial (E := E) [] i [] [i] rfl).1
    exact ⟨_, this, rfl⟩
  | false =>
    have hr : Pipe.Spec.applyAll ops i = .ok r := by simpa using h
    have hm : ([] ++ [i]).mapM (Pipe.Spec.applyAll ops) = .ok [r] := by
      simp [hr, bind, Except.bind, pure, Except.pure]
    have := (Pipe.c40_runs_all_once_partial [] i ops [r] hm).1
    refine ⟨{ state := none, decode := none, image := [r], operations := ops }, ?_, rfl⟩
    simp only [pipeline, hb]
    exact this

theorem exec_eq (ft : Features) (enc : Format → I → Option (List UInt8)) (stdin : Bool) (i r : I) (ops : List (I → I × Except E Unit))
    (h : (if stdin then .ok i else Pipe.Spec.applyAll ops i) = Except.ok r) (outs : List (List Char)) (d : Disk)
    (b : Format → List UInt8) (fs : List Format) (f : Format) (hf : formats ft outs = fs ++ [f]) (he : ∀ g ∈ formats ft outs, enc g r = some (b g)) :
    ∃ d', exec ft enc stdin (.ok i) ops outs d = (true, d') ∧
      ∀ n, (n ∈ outs ∧ extension n ≠ none → d' n = some (b f)) ∧ (¬ (n ∈ outs ∧ extension n ≠ none) → d' n = d n) := by
  obtain ⟨p, hp, hi⟩ := images_eq stdin i r ops h
  have := writeOuts_eq ft enc b r fs f (fun g hg => ⟨mem_formats (hf ▸ hg), he g (hf ▸ hg)⟩) outs d
  unfold exec
  rw [hp]
  simp only [hi, hf, List.map_cons, List.map_nil]
  rw [show ((fs ++ [f]).flatMap fun g => [(g, r)]) = (fs ++ [f]).map fun g => (g, r) from by induction (fs ++ [f]) with | nil => rfl | cons a l ih => rw [List.flatMap_cons, ih]; rfl]
  exact this

/-- C137, the part that holds: when the input is a file and all outputs have the same format, each output is the picture after all operations in that format, and no other file is
touched.  (Missing: outputs of several formats and standard input, for which see below.) -/
theorem c137_one_format_partial (ft : Features) (enc : Format → I → Option (List UInt8)) (i r : I) (ops : List (I → I × Except E Unit))
    (h : Pipe.Spec.applyAll ops i = .ok r) (outs : List (List Char)) (d : Disk) (f : Format) (b : List UInt8)
    (hf : ∀ n ∈ outs, formatOf ft n = some f) (hb : enc f r = some b) :
    ∃ d', exec ft enc false (.ok i) ops outs d = (true, d') ∧ ∀ n, (n ∈ outs → d' n = some b) ∧ (n ∉ outs → d' n = d n) := by
  rcases List.eq_nil_or_concat outs with rfl | ⟨os, o, rfl⟩
  · obtain ⟨p, hp, hi⟩ := images_eq false i r ops (by simpa using h)
    exact ⟨d, by simp [exec, hp, writeOuts], by simp⟩
  · have ho : formatOf ft o = some f := hf o (by simp)
    have hfs : formats ft (os.concat o) = formats ft os ++ [f] := by
      simp [formats, ho]
    have hall : ∀ g ∈ formats ft (os.concat o), g = f := by
      intro g hg
      obtain ⟨n, hn, hg⟩ := List.mem_filterMap.1 hg
      rw [hf n hn] at hg
      exact (Option.some.inj hg).symm
    obtain ⟨d', e, hd⟩ := exec_eq ft enc false i r ops (by simpa using h) (os.concat o) d (fun _ => b) _ f hfs (fun g hg => by rw [hall g hg, hb])
    refine ⟨d', e, fun n => ⟨fun hn => (hd n).1 ⟨hn, ?_⟩, fun hn => (hd n).2 fun hh => hn hh.1⟩⟩
    intro hx
    have := hf n hn
    simp [formatOf, hx] at this

/-- Names for the examples. -/
def allFeatures : Features := ⟨true, true, true, true, true, true, true, true, true, true⟩

example : formatOf allFeatures "a.ppm".toList = some .PPM ∧ formatOf allFeatures "b.pgm".toList = some .PPM ∧ formatOf allFeatures "a.png".toList = some .PNG ∧
    Pipe.Spec.applyAll (E := Unit) [fun i => (i + 1, .ok ()), fun i => (i * 2, .ok ())] 3 = .ok 8 := by
  refine ⟨by decide, by decide, by decide, rfl⟩

/-- C137, refuted: with outputs of several formats every output with an extension, known or not, gets the format of the last: `-o a.ppm -o a.png`, which the comment at workflow.rs:123-124
calls perfectly valid, writes PNG to `a.ppm`. -/
theorem c137_formats_wrong (ft : Features) (enc : Format → I → Option (List UInt8)) (i r : I) (ops : List (I → I × Except E Unit))
    (h : Pipe.Spec.applyAll ops i = .ok r) (outs : List (List Char)) (last : List Char) (d : Disk) (f : Format) (b : Format → List UInt8)
    (hl : formatOf ft last = some f) (hb : ∀ n ∈ outs ++ [last], ∀ g, formatOf ft n = some g → enc g r = some (b g)) :
    ∃ d', exec ft enc false (.ok i) ops (outs ++ [last]) d = (true, d') ∧ (∀ n ∈ outs, extension n ≠ none → d' n = some (b f)) ∧
      ∀ n ∈ outs, ∀ g, formatOf ft n = some g → b g ≠ b f → d' n ≠ enc g r := by
  have hfs : formats ft (outs ++ [last]) = formats ft outs ++ [f] := by
    simp [formats, hl]
  obtain ⟨d', e, hd⟩ := exec_eq ft enc false i r ops (by simpa using h) (outs ++ [last]) d b _ f hfs (fun g hg => by
    obtain ⟨n, hn, hg⟩ := List.mem_filterMap.1 hg
    exact hb n hn g hg)
  refine ⟨d', e, fun n hn hx => (hd n).1 ⟨by simp [hn], hx⟩, ?_⟩
  intro n hn g hg hne
  have hx : extension n ≠ none := by
    intro hx
    simp [formatOf, hx] at hg
  rw [(hd n).1 ⟨by simp [hn], hx⟩, hb n (by simp [hn]) g hg]
  intro hh
  exact hne (Option.some.inj hh).symm

example : (exec (E := Unit) allFeatures (fun g (i : UInt8) => some (if g = .PNG then [137, i] else [80, i])) false (.ok 3) [fun i => (i + 1, .ok ())]
    ["a.ppm".toList, "a.png".toList] (fun _ => none)).2 "a.ppm".toList = some [137, 4] := by
  obtain ⟨d', e, hd, _⟩ := c137_formats_wrong (E := Unit) allFeatures (fun g (i : UInt8) => some (if g = .PNG then [137, i] else [80, i])) 3 4
    [fun i => (i + 1, .ok ())] rfl ["a.ppm".toList] "a.png".toList (fun _ => none) .PNG (fun g => if g = .PNG then [137, 4] else [80, 4]) (by decide) (fun _ _ _ _ => rfl)
  have := hd "a.ppm".toList (by simp) (by decide)
  rw [List.singleton_append] at e
  rw [e]
  exact this

/-- C137, refuted: operations are not applied to pictures from standard input. -/
theorem c137_stdin_wrong (ft : Features) (enc : Format → I → Option (List UInt8)) (i : I) (ops : List (I → I × Except E Unit)) (out : List Char) (d : Disk) (f : Format)
    (b : List UInt8) (hf : formatOf ft out = some f) (hb : enc f i = some b) :
    ∃ d', exec ft enc true (.ok i) ops [out] d = (true, d') ∧ d' out = some b := by
  have hfs : formats ft [out] = [] ++ [f] := by simp [formats, hf]
  obtain ⟨d', e, hd⟩ := exec_eq ft enc true i i ops (by simp) [out] d (fun _ => b) [] f hfs (fun g hg => by
    rw [hfs] at hg
    have : g = f := by simpa using hg
    rw [this, hb])
  refine ⟨d', e, (hd out).1 ⟨by simp, ?_⟩⟩
  intro hx
  simp [formatOf, hx] at hf

example : formatOf allFeatures "a.qoi".toList = some .QOI := by decide

/-- C137, refuted: when no output has a known format nothing is written, and the program succeeds. -/
theorem c137_silent_wrong (ft : Features) (enc : Format → I → Option (List UInt8)) (i r : I) (ops : List (I → I × Except E Unit)) (h : Pipe.Spec.applyAll ops i = .ok r)
    (outs : List (List Char)) (d : Disk) (hf : ∀ n ∈ outs, formatOf ft n = none) : exec ft enc false (.ok i) ops outs d = (true, d) := by
  obtain ⟨p, hp, hi⟩ := images_eq false i r ops (by simpa using h)
  have hfs : formats ft outs = [] := by
    simpa [formats, List.filterMap_eq_nil_iff] using hf
  have : ∀ outs d, writeOuts ft enc ([] : List (Format × I)) outs d = (true, d) := by
    intro outs
    induction outs with
    | nil => intro d; rfl
    | cons n outs ih =>
      intro d
      cases hx : extension n <;> simp [writeOuts, hx, writeAll, ih]
  simp [exec, hp, hfs, this]

example : formatOf allFeatures "a.bmp".toList = none ∧ formatOf allFeatures "a".toList = none := by decide

/-- C137: when the encoder fails the program fails, and what was in the file is lost. -/
theorem c137_encode (ft : Features) (enc : Format → I → Option (List UInt8)) (i r : I) (ops : List (I → I × Except E Unit)) (h : Pipe.Spec.applyAll ops i = .ok r)
    (out : List Char) (d : Disk) (f : Format) (hf : formatOf ft out = some f) (he : enc f r = none) :
    ∃ d', exec ft enc false (.ok i) ops [out] d = (false, d') ∧ d' out = some [] ∧ ∀ n, n ≠ out → d' n = d n := by
  obtain ⟨p, hp, hi⟩ := images_eq false i r ops (by simpa using h)
  have hx : extension out ≠ none := by
    intro hx
    simp [formatOf, hx] at hf
  obtain ⟨x, hx⟩ := Option.ne_none_iff_exists'.1 hx
  have hh : hasEncoder ft f = true := mem_formats (outs := [out]) (by simp [formats, hf])
  refine ⟨Function.update d out (some []), ?_, by simp, fun n hn => by simp [hn]⟩
  simp [exec, hp, hi, formats, hf, writeOuts, hx, writeAll, hh, he]

/-- C137: when the picture cannot be decoded, the program fails and no file is touched. -/
theorem c137_decode (ft : Features) (enc : Format → I → Option (List UInt8)) (stdin : Bool) (e : E) (ops : List (I → I × Except E Unit)) (outs : List (List Char)) (d : Disk) :
    exec ft enc stdin (.error e) ops outs d = (false, d) := by
  have hb : ∀ (l : List (I → I × Except E Unit)) (p : Pipeline I E), l.foldl Pipeline.chainOperations p = { p with operations := p.operations ++ l } := by
    intro l
    induction l with
    | nil => intro p; simp
    | cons a l ih => intro p; rw [List.foldl_cons, ih]; simp [Pipeline.chainOperations]
  have key : ∀ os : List (I → I × Except E Unit), ∃ p x,
      Pipeline.advanceToEnd { state := some .initialized, decode := some (.error e), image := [], operations := os } = (p, .error x) := by
    intro os
    refine ⟨{ state := some .decode, decode := none, image := [], operations := os }, .other e, ?_⟩
    rw [Pipeline.advanceToEnd, dif_pos (by rfl)]
    split
    · rename_i p' u he
      obtain ⟨rfl, _⟩ := Prod.mk.inj (show (_, _) = (p', Except.ok u) from he)
      rw [Pipeline.advanceToEnd, dif_pos (by rfl)]
      rfl
    · rename_i p' u he
      exact absurd (Prod.mk.inj (show (_, _) = (p', Except.error u) from he)).2 (by simp)
  have kp : ∃ p x, (pipeline stdin (.error e) ops : Pipeline I E).advanceToEnd = (p, .error x) := by
    cases stdin with
    | true => exact key []
    | false =>
      simp only [pipeline, hb]
      exact key ops
  obtain ⟨p, x, hp⟩ := kp
  simp [exec, hp]

end Zune.Workflow
