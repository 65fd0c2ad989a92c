/-
**C132**: pictures saved to files.
-/
import Verif.Image.FileModel
import Verif.Image.Save

namespace Zune.Files
open Zune.Guess (Format)

/-! ### Lemmas -/

theorem flush_all (room : Nat) (w : Writer) : (flushBuf room w).2.file ++ (flushBuf room w).2.buf = w.file ++ w.buf := by
  simp [flushBuf, fileWrite]

theorem flush_ok {room : Nat} {w : Writer} (h : (flushBuf room w).1 = true) : (flushBuf room w).2 = ⟨w.file ++ w.buf, []⟩ := by
  simp only [flushBuf, fileWrite, decide_eq_true_eq] at h ⊢
  rw [List.take_of_length_le h, List.drop_of_length_le h]

theorem write_inv (cap room : Nat) (w : Writer) (b : List UInt8) :
    (writeAll cap room w b).2.file ++ (writeAll cap room w b).2.buf <+: w.file ++ w.buf ++ b ∧
      ((writeAll cap room w b).1 = true → (writeAll cap room w b).2.file ++ (writeAll cap room w b).2.buf = w.file ++ w.buf ++ b) := by
  unfold writeAll
  by_cases c : b.length < cap - w.buf.length
  · rw [if_pos c]; simp
  · rw [if_neg c]
    by_cases d : cap - w.buf.length < b.length
    · simp only [d, if_true]
      by_cases e : (flushBuf room w).1 = false
      · rw [if_pos e, flush_all]
        exact ⟨List.prefix_append _ _, by simp⟩
      · rw [if_neg e, flush_ok (by simpa using e)]
        by_cases g : cap ≤ b.length
        · rw [if_pos g]
          simp only [fileWrite, List.append_nil, decide_eq_true_eq]
          refine ⟨?_, fun hl => by rw [List.take_of_length_le hl]⟩
          exact (List.prefix_append_right_inj _).2 (List.take_prefix _ _)
        · rw [if_neg g]; simp
    · simp only [d, if_false]
      rw [if_neg (by simp)]
      by_cases g : cap ≤ b.length
      · rw [if_pos g]
        have : w.buf = [] ∨ b = [] := by
          rcases Nat.eq_zero_or_pos b.length with h | h
          · exact Or.inr (List.length_eq_zero_iff.1 h)
          · exact Or.inl (List.length_eq_zero_iff.1 (by omega))
        rcases this with h | h
        · rw [h]
          simp only [fileWrite, List.append_nil, decide_eq_true_eq]
          refine ⟨?_, fun hl => by rw [List.take_of_length_le hl]⟩
          exact (List.prefix_append_right_inj _).2 (List.take_prefix _ _)
        · subst h
          simp [fileWrite]
      · rw [if_neg g]; simp

theorem write_room {cap room : Nat} {w : Writer} {b : List UInt8} (h : w.file.length + w.buf.length + b.length ≤ room) : (writeAll cap room w b).1 = true := by
  unfold writeAll
  by_cases c : b.length < cap - w.buf.length
  · rw [if_pos c]
  · rw [if_neg c]
    have fo : (flushBuf room w).1 = true := by simp only [flushBuf, fileWrite, decide_eq_true_eq]; omega
    by_cases d : cap - w.buf.length < b.length
    · simp only [d, if_true, fo, flush_ok fo]
      simp only [Bool.true_eq_false, if_false]
      split
      · simp only [fileWrite, decide_eq_true_eq, List.length_append]; omega
      · rfl
    · simp only [d, if_false, Bool.true_eq_false]
      split
      · simp only [fileWrite, decide_eq_true_eq]; omega
      · rfl

theorem run_prefix (cap room : Nat) : ∀ (bs : List (List UInt8)) (ok : Bool) (w : Writer),
    (runOut cap room w bs ok).2.file ++ (runOut cap room w bs ok).2.buf <+: w.file ++ w.buf ++ bs.flatten
  | [], _, w => by simp [runOut]
  | b :: bs, ok, w => by
    unfold runOut
    by_cases c : (writeAll cap room w b).1 = false
    · simp only [c, if_true]
      refine (write_inv cap room w b).1.trans ?_
      rw [List.flatten_cons, ← List.append_assoc]
      exact List.prefix_append _ _
    · simp only [if_neg c]
      have := run_prefix cap room bs ok (writeAll cap room w b).2
      rw [(write_inv cap room w b).2 (by simpa using c)] at this
      simpa using this

theorem run_room {cap room : Nat} : ∀ (bs : List (List UInt8)) (ok : Bool) (w : Writer), w.file.length + w.buf.length + bs.flatten.length ≤ room →
    (runOut cap room w bs ok).1 = ok ∧ (runOut cap room w bs ok).2.file ++ (runOut cap room w bs ok).2.buf = w.file ++ w.buf ++ bs.flatten
  | [], _, w, _ => by simp [runOut]
  | b :: bs, ok, w, h => by
    rw [List.flatten_cons, List.length_append] at h
    have c := write_room (cap := cap) (room := room) (w := w) (b := b) (by omega)
    have e := (write_inv cap room w b).2 c
    have l := congrArg List.length e
    simp only [List.length_append] at l
    obtain ⟨h1, h2⟩ := run_room (cap := cap) (room := room) bs ok (writeAll cap room w b).2 (by omega)
    unfold runOut
    simp only [c, Bool.true_eq_false, if_false]
    exact ⟨h1, by rw [h2, e]; simp⟩

theorem write_buf {cap room : Nat} {w : Writer} (b : List UInt8) (h : w.buf.length ≤ cap) : (writeAll cap room w b).2.buf.length ≤ cap := by
  have fl : (flushBuf room w).2.buf.length ≤ cap := by simp only [flushBuf, List.length_drop]; omega
  unfold writeAll
  by_cases c : b.length < cap - w.buf.length
  · rw [if_pos c]; simp only [List.length_append]; omega
  · rw [if_neg c]
    by_cases d : cap - w.buf.length < b.length
    · simp only [d, if_true]
      by_cases e : (flushBuf room w).1 = false
      · rw [if_pos e]; exact fl
      · rw [if_neg e, flush_ok (by simpa using e)]
        split
        · simp
        · simp only [List.nil_append]; omega
    · simp only [d, if_false]
      rw [if_neg (by simp)]
      split
      · exact h
      · simp only [List.length_append]; omega

theorem run_success {cap room : Nat} : ∀ (bs : List (List UInt8)) (ok : Bool) (w : Writer), w.buf.length ≤ cap → (runOut cap room w bs ok).1 = true →
    ok = true ∧ (runOut cap room w bs ok).2.buf.length ≤ cap ∧
      (runOut cap room w bs ok).2.file ++ (runOut cap room w bs ok).2.buf = w.file ++ w.buf ++ bs.flatten
  | [], _, w, hb, h => by simp only [runOut] at h ⊢; exact ⟨h, hb, by simp⟩
  | b :: bs, ok, w, hb, h => by
    unfold runOut at h ⊢
    by_cases c : (writeAll cap room w b).1 = false
    · simp only [c, if_true] at h; cases h
    · simp only [if_neg c] at h ⊢
      obtain ⟨h1, h2, h3⟩ := run_success bs ok _ (write_buf b hb) h
      refine ⟨h1, h2, ?_⟩
      rw [h3, (write_inv cap room w b).2 (by simpa using c)]
      simp

theorem run_small {cap room : Nat} : ∀ (bs : List (List UInt8)) (ok : Bool) (buf : List UInt8), buf.length + bs.flatten.length < cap →
    runOut cap room ⟨[], buf⟩ bs ok = (ok, ⟨[], buf ++ bs.flatten⟩)
  | [], _, _, _ => by simp [runOut]
  | b :: bs, ok, buf, h => by
    rw [List.flatten_cons, List.length_append] at h
    have e : writeAll cap room ⟨[], buf⟩ b = (true, ⟨[], buf ++ b⟩) := by
      unfold writeAll
      rw [if_pos (by simp only; omega)]
    unfold runOut
    simp only [e, Bool.true_eq_false, if_false]
    rw [run_small bs ok (buf ++ b) (by simp only [List.length_append]; omega)]
    simp

theorem ext_dot {stem ext : List Char} (hs : stem ≠ []) (he : ext ≠ []) (hd : '.' ∉ ext) : extension (stem ++ '.' :: ext) = some ext := by
  have e : ((stem ++ '.' :: ext).reverse.takeWhile fun c => c != '.').reverse = ext := by
    rw [List.reverse_append, List.reverse_cons, List.append_assoc, List.takeWhile_append_of_pos]
    · simp
    · intro c hc
      have : c ≠ '.' := fun h => hd (by rw [← h]; simpa using hc)
      simpa using this
  have h0 : 0 < stem.length := List.length_pos_iff.2 hs
  have h1 : 0 < ext.length := List.length_pos_iff.2 he
  unfold extension
  simp only [e]
  rw [if_neg]
  rintro (h | h)
  · have := congrArg List.length h
    simp only [List.length_append, List.length_cons, List.length_nil] at this
    omega
  · simp only [List.length_append, List.length_cons] at h
    omega

theorem takeWhile_nodot {l : List Char} (h : '.' ∉ l) : (l.takeWhile fun c => c != '.') = l := by
  have := List.takeWhile_append_of_pos (p := fun c => c != '.') (l₁ := l) (l₂ := []) fun c hc => by
    have : c ≠ '.' := fun e => h (e ▸ hc)
    simpa using this
  simpa using this

theorem ext_hidden {name : List Char} (h : '.' ∉ name.tail) : extension name = none := by
  unfold extension
  simp only
  rw [if_pos]
  right
  cases name with
  | nil => simp
  | cons c t =>
    rw [List.tail_cons] at h
    have hr : '.' ∉ t.reverse := by simpa using h
    by_cases e : c = '.'
    · subst e
      rw [List.reverse_cons, List.takeWhile_append_of_pos (fun x hx => by
        have : x ≠ '.' := fun e => hr (e ▸ hx)
        simpa using this)]
      simp
    · rw [takeWhile_nodot (l := (c :: t).reverse) (by simp only [List.mem_reverse, List.mem_cons, not_or]; exact ⟨fun x => e x.symm, h⟩)]
      simp

/-! ### The extensions, apart from the model -/

/-- The extensions there are, with the formats they stand for. -/
def table : List (String × Format) :=
  [("qoi", .QOI), ("ppm", .PPM), ("pam", .PPM), ("pgm", .PPM), ("pbm", .PPM), ("pfm", .PPM), ("jpeg", .JPEG), ("jpg", .JPEG), ("jxl", .JPEG_XL), ("ff", .Farbfeld),
    ("hdr", .HDR), ("png", .PNG)]

/-! ### Theorems -/

/-- **C132** (extensions). The format of an extension is that of the table when it has an encoder, and there is none otherwise; formats with an encoder have a decoder and
an extension. -/
theorem c132_extensions (ft : Features) : (∀ ext f, encoderForExtension ft ext = some f ↔ (ext, f) ∈ table ∧ hasEncoder ft f = true) ∧
    (∀ f, hasEncoder ft f = true → hasDecoder ft f = true ∧ ∃ ext, encoderForExtension ft ext = some f) := by
  have key : ∀ ext f, encoderForExtension ft ext = some f ↔ (ext, f) ∈ table ∧ hasEncoder ft f = true := by
    intro ext f
    by_cases c : ext ∈ table.map Prod.fst
    · simp only [table, List.map_cons, List.map_nil, List.mem_cons, List.not_mem_nil, or_false] at c
      rcases c with rfl | rfl | rfl | rfl | rfl | rfl | rfl | rfl | rfl | rfl | rfl | rfl <;> cases f <;>
        simp [encoderForExtension, table, hasEncoder]
    · have n : ∀ e ∈ table.map Prod.fst, ext ≠ e := fun e he h => c (h ▸ he)
      simp only [table, List.map_cons, List.map_nil, List.mem_cons, List.not_mem_nil, or_false, forall_eq_or_imp, forall_eq] at n
      obtain ⟨h1, h2, h3, h4, h5, h6, h7, h8, h9, h10, h11, h12⟩ := n
      simp [encoderForExtension, table, *]
  refine ⟨key, fun f hf => ⟨?_, ?_⟩⟩
  · cases f <;> simp_all [hasEncoder, hasDecoder]
  · have : ∃ ext, (ext, f) ∈ table := by
      cases f
      case PNG => exact ⟨"png", by decide⟩
      case JPEG => exact ⟨"jpg", by decide⟩
      case PPM => exact ⟨"ppm", by decide⟩
      case Farbfeld => exact ⟨"ff", by decide⟩
      case QOI => exact ⟨"qoi", by decide⟩
      case HDR => exact ⟨"hdr", by decide⟩
      case JPEG_XL => exact ⟨"jxl", by decide⟩
      all_goals simp [hasEncoder] at hf
    obtain ⟨ext, he⟩ := this
    exact ⟨ext, (key ext f).2 ⟨he, hf⟩⟩

example : encoderForExtension ⟨false, false, true, false, false, false, false, false, false, false⟩ "pam" = some .PPM ∧
    encoderForExtension ⟨false, false, true, false, false, false, false, false, false, false⟩ "qoi" = none := by decide

/-- **C132** (saving). With room for the file, a picture saved under a name with the extension of a format is written to the file as the encoder of that format gives it,
however it hands over the bytes and however large the buffer is; success is that of the encoder. -/
theorem c132_save (ft : Features) (enc : Format → Out) (cap room : Nat) (stem : List Char) (ext : String) (f : Format) (old : Option (List UInt8)) (hs : stem ≠ [])
    (he : (ext, f) ∈ table) (hf : hasEncoder ft f = true) (hr : (enc f).chunks.flatten.length ≤ room) :
    save ft enc cap room (stem ++ '.' :: ext.toList) old = ((enc f).ok, some (enc f).chunks.flatten) := by
  have hx : ext.toList ≠ [] ∧ '.' ∉ ext.toList := by
    have : ∀ p ∈ table, p.1.toList ≠ [] ∧ '.' ∉ p.1.toList := by decide
    exact this _ he
  unfold save
  rw [ext_dot hs hx.1 hx.2]
  simp only [String.ofList_toList]
  rw [((c132_extensions ft).1 ext f).2 ⟨he, hf⟩]
  simp only
  obtain ⟨h1, h2⟩ := run_room (cap := cap) (room := room) (enc f).chunks (enc f).ok ⟨[], []⟩ (by simpa using hr)
  have fo : (flushBuf room (runOut cap room ⟨[], []⟩ (enc f).chunks (enc f).ok).2).1 = true := by
    have := congrArg List.length h2
    simp only [List.length_append, List.length_nil, Nat.zero_add] at this
    simp only [flushBuf, fileWrite, decide_eq_true_eq]
    omega
  unfold saveTo
  simp only [h1, flush_ok fo, h2]
  simp

/-- All features. -/
def allFeatures : Features := ⟨true, true, true, true, true, true, true, true, true, true⟩

example : save allFeatures (fun _ => ⟨[[1, 2], [3, 4, 5], [6]], true⟩) 2 8 "a.b.png".toList (some [9]) = (true, some [1, 2, 3, 4, 5, 6]) := by decide +kernel

/-- **C132** (any room). Whatever room there is, the file never holds anything else than a beginning of what the encoder writes. -/
theorem c132_prefix (cap room : Nat) (o : Out) : (saveTo cap room o).2 <+: o.chunks.flatten := by
  have h := run_prefix cap room o.chunks o.ok ⟨[], []⟩
  simp only [List.append_nil, List.nil_append] at h
  refine List.IsPrefix.trans ?_ h
  unfold saveTo
  simp only
  conv => rhs; rw [← flush_all room]
  exact List.prefix_append _ _

example : saveTo 2 3 ⟨[[1, 2], [3, 4, 5], [6]], true⟩ = (false, [1, 2, 3]) := by decide

/-- **C132** (success). When `save_to` tells of success the encoder has succeeded, and of its bytes at most as many as the buffer holds are missing at the end of the file.

Missing: that none are; see `c132_full_wrong`. -/
theorem c132_success_partial (cap room : Nat) (o : Out) (h : (saveTo cap room o).1 = true) :
    o.ok = true ∧ (saveTo cap room o).2 <+: o.chunks.flatten ∧ o.chunks.flatten.length ≤ (saveTo cap room o).2.length + cap := by
  obtain ⟨h1, h2, h3⟩ := run_success (cap := cap) (room := room) o.chunks o.ok ⟨[], []⟩ (by simp) h
  refine ⟨h1, c132_prefix cap room o, ?_⟩
  have l := congrArg List.length h3
  simp only [List.length_append, List.length_nil, Nat.zero_add, List.append_nil] at l
  have : (runOut cap room ⟨[], []⟩ o.chunks o.ok).2.file.length ≤ (saveTo cap room o).2.length := by
    simp only [saveTo, flushBuf, fileWrite, List.length_append]
    omega
  omega

example : saveTo 2 5 ⟨[[1, 2], [3, 4, 5], [6]], true⟩ = (true, [1, 2, 3, 4, 5]) := by decide

/-- **C132** (names). Names without an extension, or with one that is not that of a format with an encoder, are refused, and the file stays as it was. -/
theorem c132_refused (ft : Features) (enc : Format → Out) (cap room : Nat) (name : List Char) (old : Option (List UInt8))
    (h : ∀ ext, extension name = some ext → ∀ f, (String.ofList ext, f) ∈ table → hasEncoder ft f = false) : save ft enc cap room name old = (false, old) := by
  unfold save
  cases e : extension name with
  | none => rfl
  | some ext =>
    simp only
    cases g : encoderForExtension ft (String.ofList ext) with
    | none => rfl
    | some f =>
      obtain ⟨g1, g2⟩ := ((c132_extensions ft).1 _ f).1 g
      rw [h ext e f g1] at g2
      cases g2

example : extension "picture".toList = none ∧ extension ".png".toList = none ∧ extension "a.b.tif".toList = some "tif".toList := by decide

/-- **C132** (names without an extension). Names with no dot after the first letter, so also hidden files like `.png`, are refused, and the file stays as it was. -/
theorem c132_hidden (ft : Features) (enc : Format → Out) (cap room : Nat) (name : List Char) (old : Option (List UInt8)) (h : '.' ∉ name.tail) :
    save ft enc cap room name old = (false, old) :=
  c132_refused ft enc cap room name old fun ext he => by rw [ext_hidden h] at he; cases he

example : save allFeatures (fun _ => ⟨[[1, 2]], true⟩) 8192 100 ".png".toList (some [7]) = (false, some [7]) := c132_hidden _ _ _ _ _ _ (by decide)

/-- **C132, disagreement SV4** Extensions in capital letters are refused. -/
theorem c132_case_wrong (ft : Features) (enc : Format → Out) (cap room : Nat) (stem : List Char) (hs : stem ≠ []) (old : Option (List UInt8)) :
    ∀ ext ∈ ["JPG", "JPEG", "PNG", "QOI", "PPM", "HDR", "FF", "JXL"], save ft enc cap room (stem ++ '.' :: ext.toList) old = (false, old) := by
  intro ext he
  have hx : ext.toList ≠ [] ∧ '.' ∉ ext.toList ∧ ext ∉ table.map Prod.fst := by
    have : ∀ e ∈ ["JPG", "JPEG", "PNG", "QOI", "PPM", "HDR", "FF", "JXL"], e.toList ≠ [] ∧ '.' ∉ e.toList ∧ e ∉ table.map Prod.fst := by decide
    exact this _ he
  refine c132_refused ft enc cap room _ old fun x hxe f hm => ?_
  rw [ext_dot hs hx.1 hx.2.1] at hxe
  cases hxe
  rw [String.ofList_toList] at hm
  exact absurd (List.mem_map.2 ⟨_, hm, rfl⟩) hx.2.2

/-- **C132, disagreement SV5** When the encoder refuses the picture before it writes anything, a file that was there is emptied. -/
theorem c132_lost_wrong (ft : Features) (enc : Format → Out) (cap room : Nat) (stem : List Char) (ext : String) (f : Format) (old : List UInt8) (hs : stem ≠ [])
    (he : (ext, f) ∈ table) (hf : hasEncoder ft f = true) (ho : enc f = ⟨[], false⟩) :
    save ft enc cap room (stem ++ '.' :: ext.toList) (some old) = (false, some []) := by
  rw [c132_save ft enc cap room stem ext f _ hs he hf (by rw [ho]; simp), ho]
  rfl

example : save allFeatures (fun _ => ⟨[], false⟩) 8192 100000 "a.png".toList (some [1, 2, 3]) = (false, some []) := by decide +kernel

/-- **C132, disagreement SV6** A file smaller than the buffer that does not fit on the device is cut without an error: the buffer is only written when the writer is dropped. -/
theorem c132_full_wrong (ft : Features) (enc : Format → Out) (cap room : Nat) (stem : List Char) (ext : String) (f : Format) (old : Option (List UInt8)) (hs : stem ≠ [])
    (he : (ext, f) ∈ table) (hf : hasEncoder ft f = true) (hc : (enc f).chunks.flatten.length < cap) (hr : room < (enc f).chunks.flatten.length) (hok : (enc f).ok = true) :
    save ft enc cap room (stem ++ '.' :: ext.toList) old = (true, some ((enc f).chunks.flatten.take room)) ∧
      (enc f).chunks.flatten.take room ≠ (enc f).chunks.flatten := by
  have hx : ext.toList ≠ [] ∧ '.' ∉ ext.toList := by
    have : ∀ p ∈ table, p.1.toList ≠ [] ∧ '.' ∉ p.1.toList := by decide
    exact this _ he
  constructor
  · unfold save
    rw [ext_dot hs hx.1 hx.2]
    simp only [String.ofList_toList]
    rw [((c132_extensions ft).1 ext f).2 ⟨he, hf⟩]
    simp only [saveTo]
    rw [run_small (enc f).chunks (enc f).ok [] (by simpa using hc)]
    simp [flushBuf, fileWrite, hok]
  · intro h
    have := congrArg List.length h
    rw [List.length_take] at this
    omega

example : save allFeatures (fun _ => ⟨[[1, 2], [3, 4, 5], [6]], true⟩) 8192 0 "a.png".toList none = (true, some []) := by decide +kernel

/-- **C132** (QOI). Every well formed 8 bit picture in RGB or RGBA that is saved under a name ending in `.qoi`, with room on the device, is opened from the file again:
size, colour space and first frame (C126). -/
theorem c132_qoi_back (ft : Features) (hq : ft.qoi = true) (env : Color.Env) (isa : Split.Isa) (o : Save.Opts) (other : Format → List UInt8 → Option Color.Image)
    (i : Color.Image) (h : i.Ok) (hd : i.depth = .eight) (hc : i.cs = .RGB ∨ i.cs = .RGBA) (hz : Save.Size o i) (enc : Format → Out)
    (hw : ∀ file, Save.writeToVec env .qoi i = .ok file → (enc .QOI).chunks.flatten = file ∧ (enc .QOI).ok = true) (cap room : Nat)
    (hr : (enc .QOI).chunks.flatten.length ≤ room) (stem : List Char) (hs : stem ≠ []) (old : Option (List UInt8)) :
    ∃ file f fs, i.frames = f :: fs ∧ save ft enc cap room (stem ++ ['.', 'q', 'o', 'i']) old = (true, some file) ∧
      Save.read isa o other file = some (Save.firstFrame i f) := by
  obtain ⟨file, f, fs, h1, h2, h3⟩ := Save.c126_qoi_exact env isa o other i h hd hc hz
  obtain ⟨w1, w2⟩ := hw file h2
  refine ⟨file, f, fs, h1, ?_, h3⟩
  have := c132_save ft enc cap room stem "qoi" .QOI old hs (by decide) (by simpa [hasEncoder] using hq) hr
  rw [w1, w2] at this
  exact this

/-- The picture of the example. -/
def exSaved : Color.Image := Save.exPicture .RGBA true [.u8 [1, 2], .u8 [3, 4], .u8 [5, 6], .u8 [7, 8]] [.u8 [9, 2], .u8 [3, 4], .u8 [5, 6], .u8 [7, 8]]

/-- An encoder that writes the file byte by byte. -/
def exEnc : Format → Out := fun _ =>
  match Save.writeToVec (Color.env0 .scalar) .qoi exSaved with
  | .ok file => ⟨file.map fun b => [b], true⟩
  | .error _ => ⟨[], false⟩

example : exSaved.Ok ∧ Save.Size ⟨100, 100, true⟩ exSaved ∧
    (∀ file, Save.writeToVec (Color.env0 .scalar) .qoi exSaved = .ok file → (exEnc .QOI).chunks.flatten = file ∧ (exEnc .QOI).ok = true) ∧
    (exEnc .QOI).chunks.flatten.length ≤ 100 :=
  ⟨Color.ok_of (by decide) (by decide) (by decide) (by decide), ⟨by decide, by decide, by decide⟩,
    fun file h => by unfold exEnc; rw [h]; simp [← List.flatMap_def], by decide +kernel⟩

end Zune.Files
