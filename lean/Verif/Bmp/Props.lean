/- Properties C26 and C27: uncompressed BMP files. -/
import Verif.Bmp.Scale
import Mathlib.Tactic.Ring
import Mathlib.Tactic.Linarith

namespace Zune.Bmp
open Zune.Stream

/-! ### Specification: the file format -/

/-- Header fields without influence on the pixels: file size and reserved bytes, planes, image size, resolution, important colours. -/
structure Spec.Misc where
  pre : List UInt8
  planes : Nat
  size : Nat
  xppm : Nat
  yppm : Nat
  important : Nat

/-- The fields fit their places. -/
structure Spec.Misc.Ok (m : Spec.Misc) : Prop where
  pre : m.pre.length = 8
  planes : m.planes < 2 ^ 16
  size : m.size < 2 ^ 32
  xppm : m.xppm < 2 ^ 32
  yppm : m.yppm < 2 ^ 32
  important : m.important < 2 ^ 32

/-- File header and BITMAPINFOHEADER, 54 bytes.  The height field of a top-down file holds minus the height. -/
def Spec.header (m : Spec.Misc) (w h : Nat) (topDown : Bool) (bpp comp off clrUsed : Nat) : List UInt8 :=
  [0x42, 0x4d] ++ m.pre ++ leBytes 4 off ++ leBytes 4 40 ++ leBytes 4 w ++ leBytes 4 (if topDown then 2 ^ 32 - h else h) ++
    leBytes 2 m.planes ++ leBytes 2 bpp ++ leBytes 4 comp ++ leBytes 4 m.size ++ leBytes 4 m.xppm ++ leBytes 4 m.yppm ++
    leBytes 4 clrUsed ++ leBytes 4 m.important

/-- The order of rows in the file, from the rows of the picture (top row first). -/
def Spec.fileOrder {α : Type} (topDown : Bool) (rows : List α) : List α := if topDown then rows else rows.reverse

/-- The number of padding bytes after `n` bytes of a row. -/
def Spec.pad (n : Nat) : Nat := (4 - n % 4) % 4

/-- Dimensions the decoder accepts: non-zero, in the limits, and the output fits in memory. -/
structure Spec.DimsOk (o : Opts) (w h : Nat) : Prop where
  w0 : 0 < w
  h0 : 0 < h
  wm : w ≤ o.maxW
  hm : h ≤ o.maxH
  w32 : w < 2 ^ 32
  h31 : h < 2 ^ 31
  size : w * h * 4 < Zune.Bytestream.usizeLim

/-! ### Headers -/

theorem bind_le {β : Type} (k v : Nat) (s : List UInt8) (f : Nat × List UInt8 → Except Err β) (h : v < 256 ^ k) :
    (io (le k (leBytes k v ++ s)) >>= f) = f (v, s) := by
  rw [le_append k v s h]; rfl

theorem skip_append (x t : List UInt8) : skip x.length (x ++ t) = t := by simp [skip]

theorem bind_exact {β : Type} (x s : List UInt8) (f : List UInt8 × List UInt8 → Except Err β) (n : Nat) (h : x.length = n) :
    (io (exact n (x ++ s)) >>= f) = f (x, s) := by
  subst h; rw [exact_append]; rfl

/-- Masks found after the 54 header bytes. -/
def tailMasks (tail : List UInt8) : Nat × Nat × Nat × Nat :=
  (leVal (tail.take 4), leVal ((tail.drop 4).take 4), leVal ((tail.drop 8).take 4), 0)

theorem longFields_spec (x tail : List UInt8) (hx : x.length = 20) (ht : 12 ≤ tail.length) :
    longFields 40 (x ++ tail) = .ok (tailMasks tail) := by
  unfold longFields
  rw [if_pos (by omega), bind_exact x tail _ 20 hx]
  have b2 : ∀ {α β : Type} (a : α) (f : α → Except Err β), (Except.ok a >>= f) = f a := fun _ _ => rfl
  have h1 : ∀ t : List UInt8, 4 ≤ t.length → io (le 4 t) = .ok (leVal (t.take 4), t.drop 4) := by
    intro t h; simp [le, exact, h, io]
  simp only
  rw [h1 _ (by omega), b2]
  simp only
  rw [h1 _ (by simp; omega), b2]
  simp only
  rw [h1 _ (by simp; omega), b2]
  simp only [List.drop_drop]
  rw [if_neg (by omega)]
  rfl

theorem infoHeader_spec (m : Spec.Misc) (hm : m.Ok) (w hf bpp cc off clr : Nat) (comp : Comp) (tail : List UInt8)
    (hw : w < 2 ^ 32) (hh : hf < 2 ^ 32) (hb : bpp < 2 ^ 16) (hc : Comp.parse cc = some comp) (hcc : cc < 2 ^ 32)
    (hoff : 54 ≤ off) (ht : 12 ≤ tail.length) :
    infoHeader off 40 (leBytes 4 w ++ (leBytes 4 hf ++ (leBytes 2 m.planes ++ (leBytes 2 bpp ++ (leBytes 4 cc ++
      (leBytes 4 m.size ++ (leBytes 4 m.xppm ++ (leBytes 4 m.yppm ++ (leBytes 4 clr ++ (leBytes 4 m.important ++ tail)))))))))) =
      .ok (w, hf, bpp, comp, tailMasks tail) := by
  unfold infoHeader
  rw [if_neg (by omega), if_pos (by omega), bind_le 4 w _ _ (by omega)]
  simp only
  rw [bind_le 4 hf _ _ (by omega)]
  simp only
  rw [bind_le 2 m.planes _ _ (by have := hm.planes; omega)]
  simp only
  rw [bind_le 2 bpp _ _ (by omega)]
  simp only
  rw [if_pos (by omega), bind_le 4 cc _ _ (by omega)]
  simp only [hc]
  have := longFields_spec (leBytes 4 m.size ++ (leBytes 4 m.xppm ++ (leBytes 4 m.yppm ++ (leBytes 4 clr ++ leBytes 4 m.important))))
    tail (by simp) ht
  simp only [List.append_assoc] at this
  rw [this]
  rfl

theorem header_drop54 (m : Spec.Misc) (hm : m.Ok) (w h : Nat) (td : Bool) (bpp cc off clr : Nat) (tail : List UInt8) (n : Nat) :
    (Spec.header m w h td bpp cc off clr ++ tail).drop (54 + n) = tail.drop n := by
  have hl : (Spec.header m w h td bpp cc off clr).length = 54 := by simp [Spec.header, hm.pre]
  rw [← hl, ← List.drop_drop, List.drop_left]

theorem header_drop46 (m : Spec.Misc) (hm : m.Ok) (w h : Nat) (td : Bool) (bpp cc off clr : Nat) (tail : List UInt8) :
    (Spec.header m w h td bpp cc off clr ++ tail).drop 46 = leBytes 4 clr ++ (leBytes 4 m.important ++ tail) := by
  have e : Spec.header m w h td bpp cc off clr ++ tail = ([0x42, 0x4d] ++ m.pre ++ leBytes 4 off ++ leBytes 4 40 ++ leBytes 4 w ++
      leBytes 4 (if td then 2 ^ 32 - h else h) ++ leBytes 2 m.planes ++ leBytes 2 bpp ++ leBytes 4 cc ++ leBytes 4 m.size ++
      leBytes 4 m.xppm ++ leBytes 4 m.yppm) ++ (leBytes 4 clr ++ (leBytes 4 m.important ++ tail)) := by
    simp only [Spec.header, List.append_assoc]
  rw [e, List.drop_append_of_le_length (by simp [hm.pre]), List.drop_of_length_le (by simp [hm.pre]), List.nil_append]

theorem decodeHeaders_spec (o : Opts) (m : Spec.Misc) (hm : m.Ok) (w h : Nat) (td : Bool) (bpp cc off clr : Nat) (comp : Comp)
    (tail : List UInt8) (hd : Spec.DimsOk o w h) (hb : bpp < 2 ^ 16) (hb0 : bpp ≠ 0) (hc : Comp.parse cc = some comp)
    (hcc : cc < 2 ^ 32) (hoff : 54 ≤ off) (hoff2 : off < 2 ^ 32) (ht : 12 ≤ tail.length) :
    decodeHeaders o (Spec.header m w h td bpp cc off clr ++ tail) =
      (pixFmt bpp comp (decide (off ≠ 54)) >>= fun fmt =>
        (if fmt = .pal8 then palette o (Spec.header m w h td bpp cc off clr ++ tail) 40 bpp else pure []) >>= fun pal =>
          pure ⟨w, h, !td, tailMasks tail, fmt, comp, bpp, pal, off⟩) := by
  have hskip : ∀ t, skip 8 (m.pre ++ t) = t := by intro t; rw [← hm.pre]; exact skip_append _ _
  have h0 := hd.h0; have h1 := hd.h31; have h2 := hd.w0; have h3 := hd.wm; have h4 := hd.hm; have h5 := hd.w32
  generalize hall : Spec.header m w h td bpp cc off clr ++ tail = all
  unfold decodeHeaders
  have e : all = 0x42 :: 0x4d :: (m.pre ++ (leBytes 4 off ++ (leBytes 4 40 ++ (leBytes 4 w ++
      (leBytes 4 (if td then 2 ^ 32 - h else h) ++ (leBytes 2 m.planes ++ (leBytes 2 bpp ++ (leBytes 4 cc ++ (leBytes 4 m.size ++
      (leBytes 4 m.xppm ++ (leBytes 4 m.yppm ++ (leBytes 4 clr ++ (leBytes 4 m.important ++ tail))))))))))))) := by
    rw [← hall]; simp only [Spec.header, List.append_assoc, List.cons_append, List.nil_append]
  have e1 : io (u8Err all) = .ok (0x42, all.drop 1) := by rw [e]; rfl
  have e2 : io (u8Err (all.drop 1)) = .ok (0x4d, all.drop 2) := by rw [e]; rfl
  have e3 : skip 8 (all.drop 2) = leBytes 4 off ++ (leBytes 4 40 ++ (leBytes 4 w ++
      (leBytes 4 (if td then 2 ^ 32 - h else h) ++ (leBytes 2 m.planes ++ (leBytes 2 bpp ++ (leBytes 4 cc ++ (leBytes 4 m.size ++
      (leBytes 4 m.xppm ++ (leBytes 4 m.yppm ++ (leBytes 4 clr ++ (leBytes 4 m.important ++ tail))))))))))) := by
    rw [e]; simp only [List.drop_succ_cons, List.drop_zero]; exact hskip _
  have b1 : ∀ {β : Type} (a : UInt8 × List UInt8) (f : UInt8 × List UInt8 → Except Err β), (Except.ok a >>= f) = f a := fun _ _ => rfl
  rw [e1, b1]
  simp only
  rw [if_neg (by simp), e2, b1]
  simp only
  rw [if_neg (by simp), e3, bind_le 4 off _ _ (by omega)]
  simp only
  rw [bind_le 4 40 _ _ (by omega)]
  simp only
  rw [if_neg (by omega), infoHeader_spec m hm w _ bpp cc off clr comp tail (by omega) (by split <;> omega) hb hc hcc hoff ht]
  have b2 : ∀ {α β : Type} (a : α) (f : α → Except Err β), (Except.ok a >>= f) = f a := fun _ _ => rfl
  rw [b2]
  have hh : (if (if td = true then 2 ^ 32 - h else h) < 2 ^ 31 then (if td = true then 2 ^ 32 - h else h)
      else 2 ^ 32 - (if td = true then 2 ^ 32 - h else h)) = h := by
    cases td
    · simp only [Bool.false_eq_true, if_false]; rw [if_pos h1]
    · simp only [if_true]; rw [if_neg (by omega)]; omega
  have hf : decide (0 < (if td = true then 2 ^ 32 - h else h) ∧ (if td = true then 2 ^ 32 - h else h) < 2 ^ 31) = !td := by
    cases td
    · simp only [Bool.false_eq_true, if_false, Bool.not_false, decide_eq_true_eq]; exact ⟨h0, h1⟩
    · simp only [if_true, Bool.not_true, decide_eq_false_iff_not]; omega
  simp only [hh, hf]
  rw [if_neg (by omega), if_neg (by omega), if_neg (by omega), if_neg (by omega), if_neg (by omega)]
  have : decide (off ≠ 40 + 14) = decide (off ≠ 54) := rfl
  rw [this]
  congr 1
  funext fmt
  split <;> rfl

/-! ### Rows -/

theorem rows_spec {α : Type} (f : List UInt8 → Except Err (List UInt8 × List UInt8)) (enc out : α → List UInt8) (rest : List UInt8)
    (l : List α) (hf : ∀ r ∈ l, ∀ s, f (enc r ++ s) = .ok (out r, s)) :
    rows f l.length (l.flatMap enc ++ rest) = .ok (l.map out) := by
  induction l with
  | nil => rfl
  | cons r l ih =>
    simp only [List.length_cons, List.flatMap_cons, List.append_assoc, rows, hf r (by simp),
      ih (fun r hr s => hf r (by simp [hr]) s), List.map_cons]

theorem rowOf_spec {α : Type} (f : List UInt8 → List UInt8 × List UInt8) (enc out : α → List UInt8) (rest : List UInt8)
    (l : List α) (hf : ∀ r ∈ l, ∀ s, f (enc r ++ s) = (out r, s)) :
    rowOf f l.length (l.flatMap enc ++ rest) = (l.flatMap out, rest) := by
  induction l with
  | nil => rfl
  | cons r l ih =>
    simp only [List.length_cons, List.flatMap_cons, List.append_assoc, rowOf, hf r (by simp),
      ih (fun r hr s => hf r (by simp [hr]) s)]

theorem flipRows_reverse (rs : List (List UInt8)) : flipRows rs = rs.reverse := by
  apply List.ext_getElem?
  intro k
  unfold flipRows
  obtain ⟨h1, h2⟩ := swapAll_spec ((List.range (rs.length / 2)).map fun i => (i, rs.length - 1 - i)) rs (by
    intro p hp; simp only [List.mem_map, List.mem_range] at hp; obtain ⟨i, hi, rfl⟩ := hp; simp only; omega) (by
    rw [List.pairwise_map]
    refine List.Pairwise.imp_of_mem ?_ (List.nodup_range (n := rs.length / 2))
    intro a b ha hb hab
    rw [List.mem_range] at ha hb
    simp only [Apart]; omega)
  by_cases hk : k < rs.length
  · rw [List.getElem?_reverse hk]
    by_cases ha : k < rs.length / 2
    · exact (h1 (k, rs.length - 1 - k) (by simp only [List.mem_map, List.mem_range]; exact ⟨k, ha, rfl⟩)).1
    · by_cases hb : rs.length - 1 - k < rs.length / 2
      · have := (h1 (rs.length - 1 - k, rs.length - 1 - (rs.length - 1 - k)) (by
          simp only [List.mem_map, List.mem_range]; exact ⟨_, hb, rfl⟩)).2
        simp only at this
        rwa [show rs.length - 1 - (rs.length - 1 - k) = k by omega] at this
      · rw [h2 k (by
          intro p hp; simp only [List.mem_map, List.mem_range] at hp; obtain ⟨i, hi, rfl⟩ := hp; simp only; omega)]
        rw [show rs.length - 1 - k = k by omega]
  · rw [List.getElem?_eq_none (by simp; omega), List.getElem?_eq_none (by simp; omega)]

theorem decodeBody_rows {α : Type} (hd : Hdr) (td : Bool) (img : List α) (out : α → List UInt8) (s : List UInt8)
    (hc : hd.comp = .rgb ∨ hd.comp = .bitfields) (hf : hd.flip = !td)
    (hp : plainRows hd s = .ok ((Spec.fileOrder td img).map out)) : decodeBody hd s = .ok (img.flatMap out) := by
  unfold decodeBody
  rw [if_neg (by rcases hc with h | h <;> simp [h]), hp]
  simp only [hf, Bool.not_not]
  cases td
  · simp [Spec.fileOrder, List.flatMap, List.map_reverse]
  · simp [Spec.fileOrder, List.flatMap, flipRows_reverse]

theorem fileOrder_length {α : Type} (td : Bool) (l : List α) : (Spec.fileOrder td l).length = l.length := by
  cases td <;> simp [Spec.fileOrder]

theorem mem_fileOrder {α : Type} (td : Bool) (l : List α) (a : α) : a ∈ Spec.fileOrder td l ↔ a ∈ l := by
  cases td <;> simp [Spec.fileOrder]

/-- Everything about a file except its pixels. -/
theorem decode_with_body (o : Opts) (m : Spec.Misc) (hm : m.Ok) (w h : Nat) (td : Bool) (bpp cc off clr : Nat) (comp : Comp)
    (tail : List UInt8) (fmt : Fmt) (pal : List (UInt8 × UInt8 × UInt8)) (out : List UInt8)
    (hd : Spec.DimsOk o w h) (hb : bpp < 2 ^ 16) (hb0 : bpp ≠ 0) (hc : Comp.parse cc = some comp)
    (hcc : cc < 2 ^ 32) (hoff : 54 ≤ off) (hoff2 : off < 2 ^ 32) (ht : 12 ≤ tail.length)
    (hfmt : pixFmt bpp comp (decide (off ≠ 54)) = .ok fmt)
    (hpal : (if fmt = .pal8 then palette o (Spec.header m w h td bpp cc off clr ++ tail) 40 bpp else pure []) = .ok pal)
    (hbody : decodeBody ⟨w, h, !td, tailMasks tail, fmt, comp, bpp, pal, off⟩ (tail.drop (off - 54)) = .ok out) :
    ∃ hdr, decode o (Spec.header m w h td bpp cc off clr ++ tail) = .ok (hdr, out) ∧ hdr.w = w ∧ hdr.h = h ∧ hdr.fmt = fmt := by
  refine ⟨⟨w, h, !td, tailMasks tail, fmt, comp, bpp, pal, off⟩, ?_, rfl, rfl, rfl⟩
  unfold decode
  rw [decodeHeaders_spec o m hm w h td bpp cc off clr comp tail hd hb hb0 hc hcc hoff hoff2 ht, hfmt]
  have b2 : ∀ {α β : Type} (a : α) (f : α → Except Err β), (Except.ok a >>= f) = f a := fun _ _ => rfl
  rw [b2, hpal, b2]
  simp only [pure, Except.pure, b2]
  have hn : fmt.n ≤ 4 := by cases fmt <;> simp [Fmt.n]
  have hlt : w * h * fmt.n < Zune.Bytestream.usizeLim := Nat.lt_of_le_of_lt (Nat.mul_le_mul_left _ hn) hd.size
  rw [if_neg (by omega)]
  have hdrop := header_drop54 m hm w h td bpp cc off clr tail (off - 54)
  rw [show 54 + (off - 54) = off by omega] at hdrop
  rw [hdrop, hbody, b2]

/-- Everything about an uncompressed file except its rows. -/
theorem decode_file {α : Type} (o : Opts) (m : Spec.Misc) (hm : m.Ok) (w h : Nat) (td : Bool) (bpp cc off clr : Nat) (comp : Comp)
    (tail : List UInt8) (fmt : Fmt) (pal : List (UInt8 × UInt8 × UInt8)) (img : List α) (out : α → List UInt8)
    (hd : Spec.DimsOk o w h) (hb : bpp < 2 ^ 16) (hb0 : bpp ≠ 0) (hc : Comp.parse cc = some comp)
    (hcc : cc < 2 ^ 32) (hoff : 54 ≤ off) (hoff2 : off < 2 ^ 32) (ht : 12 ≤ tail.length)
    (hfmt : pixFmt bpp comp (decide (off ≠ 54)) = .ok fmt)
    (hpal : (if fmt = .pal8 then palette o (Spec.header m w h td bpp cc off clr ++ tail) 40 bpp else pure []) = .ok pal)
    (hcomp : comp = .rgb ∨ comp = .bitfields)
    (hrows : plainRows ⟨w, h, !td, tailMasks tail, fmt, comp, bpp, pal, off⟩ (tail.drop (off - 54)) = .ok ((Spec.fileOrder td img).map out)) :
    ∃ hdr, decode o (Spec.header m w h td bpp cc off clr ++ tail) = .ok (hdr, img.flatMap out) ∧
      hdr.w = w ∧ hdr.h = h ∧ hdr.fmt = fmt :=
  decode_with_body o m hm w h td bpp cc off clr comp tail fmt pal _ hd hb hb0 hc hcc hoff hoff2 ht hfmt hpal
    (decodeBody_rows _ td img out _ hcomp rfl hrows)

/-! ### 24 and 32 bits -/

/-- A 24-bit row: blue, green, red, then padding. -/
def Spec.enc24 (r : List (UInt8 × UInt8 × UInt8) × List UInt8) : List UInt8 := (r.1.flatMap fun p => [p.2.2, p.2.1, p.1]) ++ r.2

/-- The samples of a row of RGB pixels. -/
def Spec.rgb (r : List (UInt8 × UInt8 × UInt8)) : List UInt8 := r.flatMap fun p => [p.1, p.2.1, p.2.2]

theorem swap02_rgb (r : List (UInt8 × UInt8 × UInt8)) : swap02 (r.flatMap fun p => [p.2.2, p.2.1, p.1]) = Spec.rgb r := by
  induction r with
  | nil => rfl
  | cons p r ih => simp only [List.flatMap_cons, List.cons_append, List.nil_append, swap02, ih, Spec.rgb]

theorem length_flatMap_const {α : Type} (l : List α) (f : α → List UInt8) (k : Nat) (h : ∀ a, (f a).length = k) :
    (l.flatMap f).length = l.length * k := by
  induction l with
  | nil => simp
  | cons a l ih => rw [List.flatMap_cons, List.length_append, h, ih, List.length_cons]; ring

/-- **C26** (24 bits): for every picture, every padding bytes, top-down or bottom-up, the decoder returns the picture from the top row,
    in RGB order, without the padding.  The file must hold at least 12 bytes after the header (`c26_tiny_file_rejected`). -/
theorem c26_rgb24_partial (o : Opts) (m : Spec.Misc) (hm : m.Ok) (td : Bool) (w clr : Nat)
    (img : List (List (UInt8 × UInt8 × UInt8) × List UInt8)) (gap rest : List UInt8) (hd : Spec.DimsOk o w img.length)
    (hr : ∀ r ∈ img, r.1.length = w ∧ r.2.length = Spec.pad (3 * w)) (hgap : 54 + gap.length < 2 ^ 32)
    (hlen : 12 ≤ (gap ++ (Spec.fileOrder td img).flatMap Spec.enc24 ++ rest).length) :
    ∃ hdr, decode o (Spec.header m w img.length td 24 0 (54 + gap.length) clr ++
        (gap ++ (Spec.fileOrder td img).flatMap Spec.enc24 ++ rest)) = .ok (hdr, img.flatMap fun r => Spec.rgb r.1) ∧
      hdr.w = w ∧ hdr.h = img.length ∧ hdr.fmt = .rgb := by
  refine decode_file o m hm w img.length td 24 0 _ clr .rgb _ .rgb [] img _ hd (by omega) (by omega) rfl (by omega) (by omega) hgap
    hlen rfl rfl (Or.inl rfl) ?_
  rw [show 54 + gap.length - 54 = gap.length by omega, List.append_assoc, List.drop_left]
  unfold plainRows
  simp only [Nat.reduceEqDiff, or_self, if_false, reduceCtorEq]
  have e := rows_spec (rowPlain ⟨w, img.length, !td, tailMasks (gap ++ ((Spec.fileOrder td img).flatMap Spec.enc24 ++ rest)), .rgb, .rgb, 24,
    [], 54 + gap.length⟩) Spec.enc24 (fun r => Spec.rgb r.1) rest (Spec.fileOrder td img) (by
      intro r hr' s
      obtain ⟨h1, h2⟩ := hr r ((mem_fileOrder td img r).1 hr')
      have hl : (r.1.flatMap fun p => [p.2.2, p.2.1, p.1]).length = w * 3 := by
        rw [length_flatMap_const _ _ 3 (by simp), h1]
      unfold rowPlain
      simp only [Fmt.n, Spec.enc24, List.append_assoc]
      rw [← hl, exact_append]
      simp only
      rw [swap02_rgb, hl]
      have : (w * 24 + 31) / 8 / 4 * 4 - w * 3 = r.2.length := by rw [h2, Spec.pad]; omega
      rw [this, skip_append])
  rw [fileOrder_length] at e
  exact e

/-- A 32-bit row: blue, green, red and an unused byte. -/
def Spec.enc32 (r : List (UInt8 × UInt8 × UInt8 × UInt8)) : List UInt8 := r.flatMap fun p => [p.2.2.1, p.2.1, p.1, p.2.2.2]

/-- The samples of a row of opaque pixels. -/
def Spec.opaque (r : List (UInt8 × UInt8 × UInt8 × UInt8)) : List UInt8 := r.flatMap fun p => [p.1, p.2.1, p.2.2.1, 255]

/-- **C26** (32 bits without masks). -/
theorem c26_rgb32_partial (o : Opts) (m : Spec.Misc) (hm : m.Ok) (td : Bool) (w clr : Nat)
    (img : List (List (UInt8 × UInt8 × UInt8 × UInt8))) (gap rest : List UInt8) (hd : Spec.DimsOk o w img.length)
    (hr : ∀ r ∈ img, r.length = w) (hgap : 54 + gap.length < 2 ^ 32)
    (hlen : 12 ≤ (gap ++ (Spec.fileOrder td img).flatMap Spec.enc32 ++ rest).length) :
    ∃ hdr, decode o (Spec.header m w img.length td 32 0 (54 + gap.length) clr ++
        (gap ++ (Spec.fileOrder td img).flatMap Spec.enc32 ++ rest)) = .ok (hdr, img.flatMap Spec.opaque) ∧
      hdr.w = w ∧ hdr.h = img.length ∧ hdr.fmt = .rgba := by
  refine decode_file o m hm w img.length td 32 0 _ clr .rgb _ .rgba [] img _ hd (by omega) (by omega) rfl (by omega) (by omega) hgap
    hlen rfl rfl (Or.inl rfl) ?_
  rw [show 54 + gap.length - 54 = gap.length by omega, List.append_assoc, List.drop_left]
  unfold plainRows
  simp only [Nat.reduceEqDiff, or_self, if_false, reduceCtorEq, true_or, if_true, ne_eq, not_false_eq_true, or_true, and_self]
  have e := rows_spec (fun s => .ok (rowOf pix32 w s)) Spec.enc32 Spec.opaque rest (Spec.fileOrder td img) (by
      intro r hr' s
      have h1 := hr r ((mem_fileOrder td img r).1 hr')
      have := rowOf_spec pix32 (fun p => [p.2.2.1, p.2.1, p.1, p.2.2.2]) (fun p => [p.1, p.2.1, p.2.2.1, 255]) s r (by
        intro p _ s; simp [pix32, orZero])
      rw [h1] at this
      simp only [Spec.enc32, Spec.opaque, this])
  rw [fileOrder_length] at e
  exact e

/-- **C26**, **C27** (32 bits with masks): each sample is the field of the pixel selected by its mask, scaled (`c27_scaling`). -/
theorem c26_masks32_partial (o : Opts) (m : Spec.Misc) (hm : m.Ok) (td : Bool) (w clr mr mg mb : Nat)
    (img : List (List Nat)) (gap rest : List UInt8) (hd : Spec.DimsOk o w img.length)
    (hr : ∀ r ∈ img, r.length = w ∧ ∀ v ∈ r, v < 2 ^ 32) (hgap : 66 + gap.length < 2 ^ 32)
    (hmr : mr < 2 ^ 32) (hmg : mg < 2 ^ 32) (hmb : mb < 2 ^ 32) (hm0 : (mr, mg, mb) ≠ (0, 0, 0)) :
    ∃ hdr, decode o (Spec.header m w img.length td 32 3 (66 + gap.length) clr ++
        ((leBytes 4 mr ++ leBytes 4 mg ++ leBytes 4 mb) ++ (gap ++ ((Spec.fileOrder td img).flatMap (fun r => r.flatMap (leBytes 4)) ++ rest)))) =
          .ok (hdr, img.flatMap fun r => r.flatMap fun v => [field v mr, field v mg, field v mb, 255]) ∧
      hdr.w = w ∧ hdr.h = img.length ∧ hdr.fmt = .rgba := by
  have hmask : ∀ t, tailMasks ((leBytes 4 mr ++ leBytes 4 mg ++ leBytes 4 mb) ++ t) = (mr, mg, mb, 0) := by
    intro t
    have l4 : ∀ v, (leBytes 4 v).length = 4 := fun v => leBytes_length 4 v
    have e1 : ((leBytes 4 mr ++ leBytes 4 mg ++ leBytes 4 mb) ++ t).take 4 = leBytes 4 mr := by
      simp only [List.append_assoc]; rw [List.take_append_of_le_length (by simp), List.take_of_length_le (by simp)]
    have e2 : ((leBytes 4 mr ++ leBytes 4 mg ++ leBytes 4 mb) ++ t).drop 4 = leBytes 4 mg ++ (leBytes 4 mb ++ t) := by
      simp only [List.append_assoc]; rw [List.drop_append_of_le_length (by simp), List.drop_of_length_le (by simp), List.nil_append]
    have e3 : ((leBytes 4 mr ++ leBytes 4 mg ++ leBytes 4 mb) ++ t).drop 8 = leBytes 4 mb ++ t := by
      rw [show 8 = 4 + 4 from rfl, ← List.drop_drop, e2, List.drop_append_of_le_length (by simp), List.drop_of_length_le (by simp),
        List.nil_append]
    have p : 256 ^ 4 = 2 ^ 32 := by norm_num
    unfold tailMasks
    rw [e1, e2, e3, List.take_append_of_le_length (by simp), List.take_of_length_le (by simp), List.take_append_of_le_length (by simp),
      List.take_of_length_le (by simp), leVal_leBytes, leVal_leBytes, leVal_leBytes, p, Nat.mod_eq_of_lt hmr, Nat.mod_eq_of_lt hmg,
      Nat.mod_eq_of_lt hmb]
  refine decode_file o m hm w img.length td 32 3 _ clr .bitfields _ .rgba [] img _ hd (by omega) (by omega) rfl (by omega) (by omega) hgap
    (by simp; omega) rfl rfl (Or.inr rfl) ?_
  have hdrop : ∀ t, ((leBytes 4 mr ++ leBytes 4 mg ++ leBytes 4 mb) ++ (gap ++ t)).drop (66 + gap.length - 54) = t := by
    intro t
    rw [← List.append_assoc, List.drop_append_of_le_length (by simp; omega), List.drop_of_length_le (by simp; omega), List.nil_append]
  rw [hdrop, hmask]
  have hne : ¬ ((mr, mg, mb, 0) : Nat × Nat × Nat × Nat) = (0, 0, 0, 0) := by
    simp only [ne_eq, Prod.mk.injEq, and_true] at hm0 ⊢; exact hm0
  unfold plainRows
  simp only [Nat.reduceEqDiff, or_self, if_false, reduceCtorEq, if_true, ne_eq, not_true_eq_false, or_false,
    and_true, effMasks, and_false, hne]
  have e := rows_spec (fun s => .ok (rowOf (pixMask32 (mr, mg, mb, 0)) w s)) (fun r => r.flatMap (leBytes 4))
    (fun r => r.flatMap fun v => [field v mr, field v mg, field v mb, 255]) rest (Spec.fileOrder td img) (by
      intro r hr' s
      obtain ⟨h1, h2⟩ := hr r ((mem_fileOrder td img r).1 hr')
      have := rowOf_spec (pixMask32 (mr, mg, mb, 0)) (leBytes 4) (fun v => [field v mr, field v mg, field v mb, 255]) s r (by
        intro v hv s
        have hz : orZero 4 (leBytes 4 v ++ s) = (leBytes 4 v, s) := by
          unfold orZero
          rw [if_pos (by simp), List.take_append_of_le_length (by simp), List.take_of_length_le (by simp),
            List.drop_append_of_le_length (by simp), List.drop_of_length_le (by simp), List.nil_append]
        unfold pixMask32
        rw [hz, leVal_leBytes, Nat.mod_eq_of_lt (by have := h2 v hv; omega)]
        simp [conv])
      rw [h1] at this
      simp only [this])
  rw [fileOrder_length] at e
  exact e

/-! ### Palettes -/

/-- A palette as stored: blue, green, red, reserved. -/
def Spec.encPal (p : List (UInt8 × UInt8 × UInt8 × UInt8)) : List UInt8 := Spec.enc32 p

/-- The colour number `i` of a palette. -/
def Spec.colour (p : List (UInt8 × UInt8 × UInt8 × UInt8)) (i : Nat) : List UInt8 := (p[i]?).toList.flatMap fun c => [c.1, c.2.1, c.2.2.1]

/-- The field "colours used" may be zero for a full palette. -/
def Spec.ClrOk (bpp clr n : Nat) : Prop := n ≤ 2 ^ bpp ∧ (clr = n ∧ n ≠ 0 ∨ clr = 0 ∧ n = 2 ^ bpp)

theorem readPalette_spec (p : List (UInt8 × UInt8 × UInt8 × UInt8)) (s : List UInt8) :
    readPalette 4 p.length (Spec.encPal p ++ s) = p.map fun c => (c.1, c.2.1, c.2.2.1) := by
  induction p with
  | nil => rfl
  | cons c p ih =>
    have : exact 4 (Spec.encPal (c :: p) ++ s) = some ([c.2.2.1, c.2.1, c.1, c.2.2.2], Spec.encPal p ++ s) := by
      simp [exact, Spec.encPal, Spec.enc32]
    rw [List.length_cons, readPalette, this]
    simp only [ih]
    rfl

theorem palette_spec (o : Opts) (m : Spec.Misc) (hm : m.Ok) (w h : Nat) (td : Bool) (bpp cc off clr : Nat)
    (p : List (UInt8 × UInt8 × UInt8 × UInt8)) (s : List UInt8) (hb : bpp ≤ 8) (hclr : Spec.ClrOk bpp clr p.length) :
    palette o (Spec.header m w h td bpp cc off clr ++ (Spec.encPal p ++ s)) 40 bpp =
      .ok ((p.map fun c => (c.1, c.2.1, c.2.2.1)) ++ List.replicate (256 - p.length) (0, 0, 0)) := by
  have hp : (2 : Nat) ^ bpp ≤ 2 ^ 8 := Nat.pow_le_pow_right (by omega) hb
  obtain ⟨hn, hc⟩ := hclr
  unfold palette
  rw [if_pos (by omega), header_drop46 m hm, bind_le 4 clr _ _ (by omega)]
  simp only
  rw [if_neg (by omega)]
  have hcol : (if clr ≠ 0 then clr else 2 ^ bpp) = p.length := by split <;> omega
  have hd := header_drop54 m hm w h td bpp cc off clr (Spec.encPal p ++ s) 0
  simp only [List.drop_zero, Nat.add_zero] at hd
  simp only [hcol, pure, Except.pure, bind, Except.bind, Nat.reduceEqDiff, if_false, Nat.reduceAdd, hd, readPalette_spec]
  congr 1
  rw [List.take_of_length_le (by simp; omega), List.length_map]

theorem palEntry_spec (p : List (UInt8 × UInt8 × UInt8 × UInt8)) (n : Nat) (i : UInt8) (hi : i.toNat < p.length) :
    palEntry ((p.map fun c => (c.1, c.2.1, c.2.2.1)) ++ List.replicate n (0, 0, 0)) i = Spec.colour p i.toNat := by
  unfold palEntry
  rw [List.getElem?_append_left (by simpa using hi), List.getElem?_map]
  rw [List.getElem?_eq_getElem hi, Spec.colour, List.getElem?_eq_getElem hi]
  rfl

/-- **C26** (8 bits with a palette). -/
theorem c26_pal8_partial (o : Opts) (m : Spec.Misc) (hm : m.Ok) (td : Bool) (w clr : Nat)
    (p : List (UInt8 × UInt8 × UInt8 × UInt8)) (img : List (List UInt8 × List UInt8)) (gap rest : List UInt8)
    (hd : Spec.DimsOk o w img.length)
    (hr : ∀ r ∈ img, r.1.length = w ∧ r.2.length = Spec.pad w ∧ ∀ i ∈ r.1, i.toNat < p.length) (hclr : Spec.ClrOk 8 clr p.length)
    (hgap : 54 + (4 * p.length + gap.length) < 2 ^ 32)
    (hlen : 12 ≤ (Spec.encPal p ++ (gap ++ (Spec.fileOrder td img).flatMap (fun r => r.1 ++ r.2) ++ rest)).length) :
    ∃ hdr, decode o (Spec.header m w img.length td 8 0 (54 + (4 * p.length + gap.length)) clr ++
        (Spec.encPal p ++ (gap ++ (Spec.fileOrder td img).flatMap (fun r => r.1 ++ r.2) ++ rest))) =
          .ok (hdr, img.flatMap fun r => r.1.flatMap fun i => Spec.colour p i.toNat) ∧
      hdr.w = w ∧ hdr.h = img.length ∧ hdr.fmt = .pal8 := by
  have hp0 : 0 < p.length := by obtain ⟨h1, h2⟩ := hclr; omega
  refine decode_file o m hm w img.length td 8 0 _ clr .rgb _ .pal8
    ((p.map fun c => (c.1, c.2.1, c.2.2.1)) ++ List.replicate (256 - p.length) (0, 0, 0)) img _ hd (by omega) (by omega) rfl (by omega) (by omega) hgap
    hlen ?_ ?_ (Or.inl rfl) ?_
  · simp only [pixFmt, Nat.reduceEqDiff, if_false, if_true]; rw [if_pos (decide_eq_true (by omega))]
  · rw [if_pos rfl]; exact palette_spec o m hm w img.length td 8 0 _ clr p _ (by omega) hclr
  have hdrop : ∀ t, (Spec.encPal p ++ (gap ++ t)).drop (54 + (4 * p.length + gap.length) - 54) = t := by
    intro t
    have hl : (Spec.encPal p).length = 4 * p.length := by
      rw [Spec.encPal, Spec.enc32, length_flatMap_const _ _ 4 (by simp), Nat.mul_comm]
    rw [← List.append_assoc, List.drop_append_of_le_length (by simp [hl]), List.drop_of_length_le (by simp [hl]), List.nil_append]
  simp only [List.append_assoc]
  rw [hdrop]
  unfold plainRows
  simp only [Nat.reduceEqDiff, or_self, if_false, if_true]
  generalize tailMasks _ = tm
  have e := rows_spec (rowPal ⟨w, img.length, !td, tm, .pal8, .rgb, 8,
    (p.map fun c => (c.1, c.2.1, c.2.2.1)) ++ List.replicate (256 - p.length) (0, 0, 0), 54 + (4 * p.length + gap.length)⟩)
    (fun r => r.1 ++ r.2) (fun r => r.1.flatMap fun i => Spec.colour p i.toNat) rest (Spec.fileOrder td img) (by
      intro r hr' s
      obtain ⟨h1, h2, h3⟩ := hr r ((mem_fileOrder td img r).1 hr')
      have := rowOf_spec (pixPal ((p.map fun c => (c.1, c.2.1, c.2.2.1)) ++ List.replicate (256 - p.length) (0, 0, 0)))
        (fun i => [i]) (fun i => Spec.colour p i.toNat) (r.2 ++ s) r.1 (by
          intro i hi s
          simp only [pixPal, List.cons_append, List.nil_append, u8]
          rw [palEntry_spec p _ i (h3 i hi)])
      rw [h1, show (r.1.flatMap fun i => [i]) = r.1 by simp] at this
      simp only [rowPal, List.append_assoc, this]
      rw [show (4 - w % 4) % 4 = r.2.length from h2.symm, skip_append])
  rw [fileOrder_length] at e
  exact e

/-! ### 16 bits -/

/-- **C26**, **C27** (16 bits, five bits per channel).  The decoder derives the stride from the number of rows, so the theorem needs a
    picture whose even-rounded width equals twice the number of rows, rounded up to a multiple of four (`c26_16bit_wrong`). -/
theorem c26_rgb16_partial (o : Opts) (m : Spec.Misc) (hm : m.Ok) (td : Bool) (w clr : Nat)
    (img : List (List Nat × List UInt8)) (gap rest : List UInt8) (hd : Spec.DimsOk o w img.length)
    (hr : ∀ r ∈ img, r.1.length = w ∧ r.2.length = Spec.pad (2 * w) ∧ ∀ v ∈ r.1, v < 2 ^ 16) (hgap : 54 + gap.length < 2 ^ 32)
    (hlen : 12 ≤ (gap ++ (Spec.fileOrder td img).flatMap (fun r => r.1.flatMap (leBytes 2) ++ r.2) ++ rest).length)
    (hshape : (2 * img.length + 3) / 4 * 4 = w + w % 2) :
    ∃ hdr, decode o (Spec.header m w img.length td 16 0 (54 + gap.length) clr ++
        (gap ++ (Spec.fileOrder td img).flatMap (fun r => r.1.flatMap (leBytes 2) ++ r.2) ++ rest)) =
          .ok (hdr, img.flatMap fun r => r.1.flatMap fun v =>
            [Spec.mask 5 10, Spec.mask 5 5, Spec.mask 5 0].map (field v)) ∧
      hdr.w = w ∧ hdr.h = img.length ∧ hdr.fmt = .rgb := by
  refine decode_file o m hm w img.length td 16 0 _ clr .rgb _ .rgb [] img _ hd (by omega) (by omega) rfl (by omega) (by omega) hgap
    hlen rfl rfl (Or.inl rfl) ?_
  rw [show 54 + gap.length - 54 = gap.length by omega, List.append_assoc, List.drop_left]
  unfold plainRows
  simp only [Nat.reduceEqDiff, or_self, if_false, reduceCtorEq, or_true, if_true, ne_eq, not_false_eq_true, and_true, and_false, effMasks]
  generalize tailMasks _ = tm
  have e := rows_spec (row16 ⟨w, img.length, !td, tm, .rgb, .rgb, 16, [], 54 + gap.length⟩ (31 <<< 10, 31 <<< 5, 31, 31))
    (fun r => r.1.flatMap (leBytes 2) ++ r.2) (fun r => r.1.flatMap fun v =>
            [Spec.mask 5 10, Spec.mask 5 5, Spec.mask 5 0].map (field v)) rest (Spec.fileOrder td img) (by
      intro r hr' s
      obtain ⟨h1, h2, h3⟩ := hr r ((mem_fileOrder td img r).1 hr')
      have := rowOf_spec (pix16 (31 <<< 10, 31 <<< 5, 31, 31) 3) (leBytes 2) (fun v =>
            [Spec.mask 5 10, Spec.mask 5 5, Spec.mask 5 0].map (field v)) (r.2 ++ s) r.1 (by
        intro v hv s
        have hz : orZero 2 (leBytes 2 v ++ s) = (leBytes 2 v, s) := by
          unfold orZero
          rw [if_pos (by simp), List.take_append_of_le_length (by simp), List.take_of_length_le (by simp),
            List.drop_append_of_le_length (by simp), List.drop_of_length_le (by simp), List.nil_append]
        unfold pix16
        rw [hz, leVal_leBytes, Nat.mod_eq_of_lt (by have := h3 v hv; omega)]
        rfl)
      rw [h1] at this
      unfold row16
      simp only
      have hk : min w ((img.length * 2 + 3) / 4 * 4) = w := by omega
      rw [hk]
      simp only [Fmt.n, List.append_assoc, this, Nat.sub_self, Nat.mul_zero, List.replicate_zero, List.append_nil]
      have : (img.length * 2 + 3) / 4 * 4 * 2 - 2 * w = r.2.length := by rw [h2, Spec.pad]; omega
      rw [this, skip_append])
  rw [fileOrder_length] at e
  exact e

/-! ### 1, 2 and 4 bits -/

/-- Index number `x` of a row of packed indices, most significant bits first. -/
def Spec.packedIndex (depth : Nat) (r : List UInt8) (x : Nat) : Nat :=
  ((r[x * depth / 8]?).elim 0 UInt8.toNat) / 2 ^ (8 - depth - x * depth % 8) % 2 ^ depth

theorem flatMap_get {α β : Type} (f : α → List β) (k : Nat) (hk : 0 < k) (hf : ∀ a, (f a).length = k) (l : List α) (x : Nat) :
    (l.flatMap f)[x]? = (l[x / k]?).bind fun a => (f a)[x % k]? := by
  induction l generalizing x with
  | nil => simp
  | cons a l ih =>
    rw [List.flatMap_cons]
    by_cases h : x < k
    · rw [List.getElem?_append_left (by rw [hf]; exact h), Nat.div_eq_of_lt h, Nat.mod_eq_of_lt h]; rfl
    · rw [List.getElem?_append_right (by rw [hf]; omega), hf, ih]
      obtain ⟨y, rfl⟩ : ∃ y, x = y + k := ⟨x - k, by omega⟩
      rw [Nat.add_sub_cancel, Nat.add_div_right _ hk, Nat.add_mod_right]
      rfl

theorem bits_table : ∀ b : UInt8, ∀ i < 8, ((b >>> UInt8.ofNat (8 - 1 * (i + 1))) &&& UInt8.ofNat (2 ^ 1 - 1)).toNat = b.toNat / 2 ^ (8 - 1 - i * 1) % 2 ^ 1 ∧
    (i < 4 → ((b >>> UInt8.ofNat (8 - 2 * (i + 1))) &&& UInt8.ofNat (2 ^ 2 - 1)).toNat = b.toNat / 2 ^ (8 - 2 - i * 2) % 2 ^ 2) ∧
    (i < 2 → ((b >>> UInt8.ofNat (8 - 4 * (i + 1))) &&& UInt8.ofNat (2 ^ 4 - 1)).toNat = b.toNat / 2 ^ (8 - 4 - i * 4) % 2 ^ 4) := by
  decide +kernel

theorem expandBits_get (depth : Nat) (hd : depth = 1 ∨ depth = 2 ∨ depth = 4) (r : List UInt8) (w : Nat)
    (hr : r.length = (w * depth + 7) / 8) :
    ((expandBits depth r).take w).map UInt8.toNat = (List.range w).map (Spec.packedIndex depth r) := by
  apply List.ext_getElem?
  intro x
  rw [List.getElem?_map, List.getElem?_map, List.getElem?_take]
  by_cases hx : x < w
  · rw [if_pos hx, List.getElem?_range hx]
    have key : ∀ k, 0 < k → depth * k = 8 → (expandBits depth r)[x]?.map UInt8.toNat = some (Spec.packedIndex depth r x) := by
      intro k hk hdk
      have h8 : 8 / depth = k := by rw [← hdk]; exact Nat.mul_div_cancel_left k (by omega)
      unfold expandBits
      rw [h8, flatMap_get _ k hk (by simp), show x / k = x * depth / 8 by
        rw [← hdk, Nat.mul_comm x depth, Nat.mul_div_mul_left _ _ (by omega)]]
      have hlt : x * depth / 8 < r.length := by rw [hr]; rcases hd with rfl | rfl | rfl <;> omega
      have hm : x % k < k := Nat.mod_lt _ hk
      have hxm : x * depth % 8 = x % k * depth := by
        rw [← hdk, Nat.mul_comm x depth, Nat.mul_mod_mul_left, Nat.mul_comm]
      unfold Spec.packedIndex
      rw [List.getElem?_eq_getElem hlt, Option.bind_some, List.getElem?_map, List.getElem?_range hm, hxm]
      simp only [Option.map_some, Option.elim_some, Option.some.injEq]
      obtain ⟨t1, t2, t3⟩ := bits_table r[x * depth / 8] (x % k) (by rcases hd with rfl | rfl | rfl <;> omega)
      rcases hd with rfl | rfl | rfl
      · exact t1
      · exact t2 (by omega)
      · exact t3 (by omega)
    rw [key (8 / depth) (by rcases hd with rfl | rfl | rfl <;> norm_num) (by rcases hd with rfl | rfl | rfl <;> norm_num)]
    rfl
  · rw [if_neg hx, List.getElem?_eq_none (l := List.range w) (by simpa using hx)]; rfl

/-- A row of packed indices with its padding. -/
def Spec.encPacked (r : List UInt8) : List UInt8 := r ++ List.replicate (Spec.pad r.length) 0

/-- **C26** (1, 2 and 4 bits).  The decoder skips no padding, so the theorem needs rows that fill a multiple of four bytes
    (`c26_4bit_wrong`). -/
theorem c26_packed_partial (o : Opts) (m : Spec.Misc) (hm : m.Ok) (td : Bool) (depth w clr : Nat)
    (hdep : depth = 1 ∨ depth = 2 ∨ depth = 4)
    (p : List (UInt8 × UInt8 × UInt8 × UInt8)) (img : List (List UInt8)) (gap rest : List UInt8)
    (hd : Spec.DimsOk o w img.length)
    (hr : ∀ r ∈ img, r.length = (w * depth + 7) / 8 ∧ ∀ x < w, Spec.packedIndex depth r x < p.length) (hclr : Spec.ClrOk depth clr p.length)
    (hgap : 54 + (4 * p.length + gap.length) < 2 ^ 32)
    (hlen : 12 ≤ (Spec.encPal p ++ (gap ++ (Spec.fileOrder td img).flatMap Spec.encPacked ++ rest)).length)
    (hshape : Spec.pad ((w * depth + 7) / 8) = 0) :
    ∃ hdr, decode o (Spec.header m w img.length td depth 0 (54 + (4 * p.length + gap.length)) clr ++
        (Spec.encPal p ++ (gap ++ (Spec.fileOrder td img).flatMap Spec.encPacked ++ rest))) =
          .ok (hdr, img.flatMap fun r => (List.range w).flatMap fun x => Spec.colour p (Spec.packedIndex depth r x)) ∧
      hdr.w = w ∧ hdr.h = img.length ∧ hdr.fmt = .pal8 := by
  have hp0 : 0 < p.length := by
    obtain ⟨h1, h2⟩ := hclr
    have : 0 < 2 ^ depth := by positivity
    omega
  refine decode_file o m hm w img.length td depth 0 _ clr .rgb _ .pal8
    ((p.map fun c => (c.1, c.2.1, c.2.2.1)) ++ List.replicate (256 - p.length) (0, 0, 0)) img _ hd (by omega) (by omega) rfl (by omega)
    (by omega) hgap hlen ?_ ?_ (Or.inl rfl) ?_
  · unfold pixFmt
    rw [if_neg (by omega), if_neg (by omega), if_neg (by omega), if_neg (by omega), if_pos hdep, if_pos (decide_eq_true (by omega))]
  · rw [if_pos rfl]; exact palette_spec o m hm w img.length td depth 0 _ clr p _ (by omega) hclr
  have hdrop : ∀ t, (Spec.encPal p ++ (gap ++ t)).drop (54 + (4 * p.length + gap.length) - 54) = t := by
    intro t
    have hl : (Spec.encPal p).length = 4 * p.length := by
      rw [Spec.encPal, Spec.enc32, length_flatMap_const _ _ 4 (by simp), Nat.mul_comm]
    rw [← List.append_assoc, List.drop_append_of_le_length (by simp [hl]), List.drop_of_length_le (by simp [hl]), List.nil_append]
  simp only [List.append_assoc]
  rw [hdrop]
  unfold plainRows
  rw [if_pos hdep, if_pos rfl]
  generalize tailMasks _ = tm
  have e := rows_spec (rowPacked ⟨w, img.length, !td, tm, .pal8, .rgb, depth,
    (p.map fun c => (c.1, c.2.1, c.2.2.1)) ++ List.replicate (256 - p.length) (0, 0, 0), 54 + (4 * p.length + gap.length)⟩)
    Spec.encPacked (fun r => (List.range w).flatMap fun x => Spec.colour p (Spec.packedIndex depth r x)) rest (Spec.fileOrder td img) (by
      intro r hr' s
      obtain ⟨h1, h2⟩ := hr r ((mem_fileOrder td img r).1 hr')
      unfold rowPacked
      have henc : Spec.encPacked r = r := by unfold Spec.encPacked; rw [h1, hshape]; simp
      simp only [henc]
      rw [← h1, exact_append]
      simp only
      have hx := expandBits_get depth hdep r w h1
      have hb : ∀ l : List UInt8, (∀ i ∈ l, i.toNat < p.length) →
          l.flatMap (palEntry ((p.map fun c => (c.1, c.2.1, c.2.2.1)) ++ List.replicate (256 - p.length) (0, 0, 0))) =
          (l.map UInt8.toNat).flatMap (Spec.colour p) := by
        intro l hl
        induction l with
        | nil => rfl
        | cons i l ih =>
          rw [List.flatMap_cons, List.map_cons, List.flatMap_cons, palEntry_spec p _ i (hl i (by simp)), ih (fun i hi => hl i (by simp [hi]))]
      rw [hb _ (by
        intro i hi
        have : i.toNat ∈ ((expandBits depth r).take w).map UInt8.toNat := List.mem_map_of_mem hi
        rw [hx, List.mem_map] at this
        obtain ⟨x, hx1, hx2⟩ := this
        rw [← hx2]; exact h2 x (List.mem_range.1 hx1)), hx]
      simp only [List.flatMap_map])
  rw [fileOrder_length] at e
  exact e

/-! ### Concrete files -/

/-- Limits and header fields for the examples. -/
def Ex.o : Opts := ⟨16384, 16384, true⟩

/-- Header fields for the examples. -/
def Ex.m : Spec.Misc := ⟨List.replicate 8 0, 1, 0, 0, 0, 0⟩

theorem Ex.mOk : Ex.m.Ok := ⟨rfl, by decide, by decide, by decide, by decide, by decide⟩

/-- The hypotheses of `c26_rgb24_partial` hold for a 2x2 picture with two padding bytes per row. -/
example : Spec.DimsOk Ex.o 2 2 ∧ (∀ r ∈ [([(1, 2, 3), (4, 5, 6)], [7, 8]), ([(9, 10, 11), (12, 13, 14)], [0, 0])],
    (r : List (UInt8 × UInt8 × UInt8) × List UInt8).1.length = 2 ∧ r.2.length = Spec.pad (3 * 2)) :=
  ⟨⟨by decide, by decide, by decide, by decide, by decide, by decide, by decide⟩, by decide⟩

/-- That picture bottom-up and top-down. -/
example : (decode Ex.o (Spec.header Ex.m 2 2 false 24 0 54 0 ++ [11, 10, 9, 14, 13, 12, 0, 0, 3, 2, 1, 6, 5, 4, 7, 8])).toOption.map (·.2) =
      some [1, 2, 3, 4, 5, 6, 9, 10, 11, 12, 13, 14] ∧
    (decode Ex.o (Spec.header Ex.m 2 2 true 24 0 54 0 ++ [3, 2, 1, 6, 5, 4, 7, 8, 11, 10, 9, 14, 13, 12, 0, 0])).toOption.map (·.2) =
      some [1, 2, 3, 4, 5, 6, 9, 10, 11, 12, 13, 14] := by decide +kernel

/-- 32 bits, 1x3. -/
example : Spec.DimsOk Ex.o 1 3 ∧ (∀ r ∈ [[(1, 2, 3, 0)], [(4, 5, 6, 0)], [(7, 8, 9, 9)]], (r : List (UInt8 × UInt8 × UInt8 × UInt8)).length = 1) :=
  ⟨⟨by decide, by decide, by decide, by decide, by decide, by decide, by decide⟩, by decide⟩

/-- Masks: 2x1, five bits each. -/
example : Spec.DimsOk Ex.o 2 1 ∧ (∀ r ∈ [[0x7fff, 0x1f]], (r : List Nat).length = 2 ∧ ∀ v ∈ r, v < 2 ^ 32) ∧
    (Spec.mask 5 10, Spec.mask 5 5, Spec.mask 5 0) ≠ (0, 0, 0) :=
  ⟨⟨by decide, by decide, by decide, by decide, by decide, by decide, by decide⟩, by decide +kernel, by decide⟩

/-- Palette of two colours, 3x1, one padding byte. -/
example : Spec.DimsOk Ex.o 3 1 ∧ Spec.ClrOk 8 2 2 ∧ (∀ r ∈ [([0, 1, 1], [0])],
    (r : List UInt8 × List UInt8).1.length = 3 ∧ r.2.length = Spec.pad 3 ∧ ∀ i ∈ r.1, i.toNat < 2) :=
  ⟨⟨by decide, by decide, by decide, by decide, by decide, by decide, by decide⟩, by unfold Spec.ClrOk; decide, by decide +kernel⟩

/-- 16 bits, 3x2: two rows give a stride of four pixels, which is right for a width of three. -/
example : Spec.DimsOk Ex.o 3 2 ∧ (2 * 2 + 3) / 4 * 4 = 3 + 3 % 2 ∧ (∀ r ∈ [([0x7fff, 0, 1], [0, 0]), ([0x1f, 2, 3], [0, 0])],
    (r : List Nat × List UInt8).1.length = 3 ∧ r.2.length = Spec.pad (2 * 3) ∧ ∀ v ∈ r.1, v < 2 ^ 16) :=
  ⟨⟨by decide, by decide, by decide, by decide, by decide, by decide, by decide⟩, by decide, by decide⟩

/-- 4 bits, 8x1. -/
example : Spec.DimsOk Ex.o 8 1 ∧ Spec.pad ((8 * 4 + 7) / 8) = 0 ∧ Spec.ClrOk 4 2 2 ∧
    (∀ r ∈ [[0x01, 0x10, 0x11, 0x00]], (r : List UInt8).length = (8 * 4 + 7) / 8 ∧ ∀ x < 8, Spec.packedIndex 4 r x < 2) :=
  ⟨⟨by decide, by decide, by decide, by decide, by decide, by decide, by decide⟩, by decide, by unfold Spec.ClrOk; decide, by decide⟩

/-- **C26** fails for 16 bits: a 1x2 picture, red above blue, comes out black above blue. -/
theorem c26_16bit_wrong :
    (decode Ex.o (Spec.header Ex.m 1 2 false 16 0 54 0 ++ ([0x1f, 0, 0, 0] ++ [0, 0x7c, 0, 0] ++ [0, 0, 0, 0]))).toOption.map (·.2) =
      some [0, 0, 0, 0, 0, 255] := by decide +kernel

/-- **C26** fails for 4 bits: a 1x2 picture of two colours, the second row (`[0x10]` with three padding bytes) is read from the padding
    of the first. -/
theorem c26_4bit_wrong :
    (decode Ex.o (Spec.header Ex.m 1 2 false 4 0 62 2 ++ (Spec.encPal [(1, 2, 3, 0), (4, 5, 6, 0)] ++
      (Spec.encPacked [0x00] ++ Spec.encPacked [0x10])))).toOption.map (·.2) = some [1, 2, 3, 1, 2, 3] := by decide +kernel

/-- **C26** fails for 8 bits without a palette: the grey levels 1 2 3 come out as 3 2 1. -/
theorem c26_grey_wrong :
    (decode Ex.o (Spec.header Ex.m 3 1 false 8 0 54 0 ++ ([1, 2, 3] ++ [0] ++ List.replicate 8 0))).toOption.map (·.2) = some [3, 2, 1] := by
  decide +kernel

/-- **C26** fails for tiny files: a 1x1 picture of 24 bits (58 bytes, a complete file) is rejected, because twelve bytes of masks are
    read after a header that has none. -/
theorem c26_tiny_file_rejected :
    (decode Ex.o (Spec.header Ex.m 1 1 false 24 0 54 0 ++ [3, 2, 1, 0])).toOption.map (·.2) = none := by decide +kernel

end Zune.Bmp
