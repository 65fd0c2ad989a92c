/- Properties C55 and C56: run-length coded BMP files. -/
import Verif.Bmp.Props

namespace Zune.Bmp
open Zune.Stream

/-! ### Specification: drawing commands -/

/-- The commands of a run-length coded bitmap, before the end-of-bitmap mark. -/
inductive Spec.Cmd where
  | run (n : Nat) (b : UInt8)
  | abs (n : Nat) (bs : List UInt8)
  | eol
  | delta (dx dy : Nat)

/-- The bytes of a command.  Absolute data is padded to an even number of bytes. -/
def Spec.Cmd.enc : Spec.Cmd → List UInt8
  | .run n b => [UInt8.ofNat n, b]
  | .abs n bs => [0, UInt8.ofNat n] ++ bs ++ List.replicate (bs.length % 2) 0
  | .eol => [0, 0]
  | .delta dx dy => [0, 2, UInt8.ofNat dx, UInt8.ofNat dy]

/-- Upper and lower half of a byte. -/
def Spec.nibbles (b : UInt8) : List UInt8 := [UInt8.ofNat (b.toNat / 16), UInt8.ofNat (b.toNat % 16)]

/-- The pixels a command draws, 8 bits. -/
def Spec.Cmd.pixels8 : Spec.Cmd → List UInt8
  | .run n b => List.replicate n b
  | .abs _ bs => bs
  | _ => []

/-- The pixels a command draws, 4 bits: a run alternates between the two halves of its byte. -/
def Spec.Cmd.pixels4 : Spec.Cmd → List UInt8
  | .run n b => (List.range n).map fun i => UInt8.ofNat (if i % 2 = 0 then b.toNat / 16 else b.toNat % 16)
  | .abs n bs => (bs.flatMap Spec.nibbles).take n
  | _ => []

/-- Well formed commands, 8 bits. -/
def Spec.Cmd.Ok8 : Spec.Cmd → Prop
  | .run n _ => 1 ≤ n ∧ n ≤ 255
  | .abs n bs => 3 ≤ n ∧ n ≤ 255 ∧ bs.length = n
  | .eol => True
  | .delta dx dy => dx ≤ 255 ∧ dy ≤ 255

/-- Well formed commands, 4 bits. -/
def Spec.Cmd.Ok4 : Spec.Cmd → Prop
  | .run n _ => 1 ≤ n ∧ n ≤ 255
  | .abs n bs => 3 ≤ n ∧ n ≤ 255 ∧ bs.length = (n + 1) / 2
  | .eol => True
  | .delta dx dy => dx ≤ 255 ∧ dy ≤ 255

instance : DecidablePred Spec.Cmd.Ok8 := fun c => by cases c <;> (unfold Spec.Cmd.Ok8; infer_instance)
instance : DecidablePred Spec.Cmd.Ok4 := fun c => by cases c <;> (unfold Spec.Cmd.Ok4; infer_instance)

/-- A cursor (column, row from the bottom) and a picture (row from the bottom, column). -/
structure Spec.Canvas where
  x : Nat
  y : Nat
  pic : Nat → Nat → UInt8

/-- Drawing a list of pixels to the right of a position. -/
def Spec.paint (pic : Nat → Nat → UInt8) (y x : Nat) (l : List UInt8) : Nat → Nat → UInt8 := fun y' x' =>
  if y' = y ∧ x ≤ x' then (l[x' - x]?).getD (pic y' x') else pic y' x'

/-- One command. -/
def Spec.draw (pixels : Spec.Cmd → List UInt8) (c : Spec.Canvas) : Spec.Cmd → Spec.Canvas
  | .eol => ⟨0, c.y + 1, c.pic⟩
  | .delta dx dy => ⟨c.x + dx, c.y + dy, c.pic⟩
  | cmd => ⟨c.x + (pixels cmd).length, c.y, Spec.paint c.pic c.y c.x (pixels cmd)⟩

/-- All commands. -/
def Spec.drawAll (pixels : Spec.Cmd → List UInt8) (c : Spec.Canvas) (cmds : List Spec.Cmd) : Spec.Canvas := cmds.foldl (Spec.draw pixels) c

/-- The cursor stays inside the bitmap. -/
def Spec.Inside (pixels : Spec.Cmd → List UInt8) (w h : Nat) : Spec.Canvas → List Spec.Cmd → Prop
  | _, [] => True
  | c, cmd :: cmds => (Spec.draw pixels c cmd).x ≤ w ∧ (Spec.draw pixels c cmd).y < h ∧ Spec.Inside pixels w h (Spec.draw pixels c cmd) cmds

/-- The blank canvas. -/
def Spec.blank : Spec.Canvas := ⟨0, 0, fun _ _ => 0⟩

/-- The end of the data: an optional end of line, then the end-of-bitmap mark. -/
def Spec.finish (eol : Bool) : List UInt8 := (if eol then [0, 0] else []) ++ [0, 1]

/-! ### Storage -/

theorem store_length (px : List UInt8) (pos : Nat) (l : List UInt8) (h : pos + l.length ≤ px.length) : (store px pos l).length = px.length := by
  simp [store]; omega

theorem store_get (px : List UInt8) (pos : Nat) (l : List UInt8) (h : pos + l.length ≤ px.length) (k : Nat) :
    (store px pos l)[k]? = if pos ≤ k ∧ k < pos + l.length then l[k - pos]? else px[k]? := by
  unfold store
  have ht : (px.take pos).length = pos := by simp; omega
  rcases Nat.lt_or_ge k pos with h1 | h1
  · rw [if_neg (by omega), List.append_assoc, List.getElem?_append_left (by omega), List.getElem?_take, if_pos h1]
  · rw [List.append_assoc, List.getElem?_append_right (by omega), ht]
    rcases Nat.lt_or_ge k (pos + l.length) with h2 | h2
    · rw [if_pos ⟨h1, h2⟩, List.getElem?_append_left (by omega)]
    · rw [if_neg (by omega), List.getElem?_append_right (by omega), List.getElem?_drop]
      congr 1; omega

/-- The pixel vector holds the picture. -/
def Agree (w h : Nat) (px : List UInt8) (pic : Nat → Nat → UInt8) : Prop :=
  px.length = w * h ∧ ∀ y < h, ∀ x < w, px[(h - 1 - y) * w + x]? = some (pic y x)

theorem row_end (w h y : Nat) (hy : y < h) : (h - 1 - y) * w + w ≤ w * h := by
  have : (h - 1 - y + 1) * w ≤ h * w := Nat.mul_le_mul_right _ (by omega)
  rw [Nat.mul_comm w h]; rw [Nat.add_mul, Nat.one_mul] at this; exact this

theorem agree_store (w h : Nat) (px : List UInt8) (pic : Nat → Nat → UInt8) (ha : Agree w h px pic) (y x : Nat) (l : List UInt8)
    (hy : y < h) (hx : x + l.length ≤ w) : Agree w h (store px ((h - 1 - y) * w + x) l) (Spec.paint pic y x l) := by
  obtain ⟨h1, h2⟩ := ha
  have he := row_end w h y hy
  have hb : (h - 1 - y) * w + x + l.length ≤ px.length := by omega
  refine ⟨by rw [store_length _ _ _ hb, h1], ?_⟩
  intro y' hy' x' hx'
  rw [store_get _ _ _ hb]
  by_cases hc : y' = y ∧ x ≤ x'
  · obtain ⟨rfl, hxx⟩ := hc
    simp only [Spec.paint, hxx, and_self, if_true]
    by_cases hl : x' < x + l.length
    · rw [if_pos (by omega), show (h - 1 - y') * w + x' - ((h - 1 - y') * w + x) = x' - x by omega]
      rw [List.getElem?_eq_getElem (by omega)]; rfl
    · rw [if_neg (by omega), h2 y' hy' x' hx', List.getElem?_eq_none (by omega)]; rfl
  · simp only [Spec.paint, hc, if_false]
    rw [if_neg ?_, h2 y' hy' x' hx']
    rintro ⟨ha, hb⟩
    rcases Nat.lt_trichotomy y' y with hlt | heq | hgt
    · have : (h - 1 - y + 1) * w ≤ (h - 1 - y') * w := Nat.mul_le_mul_right _ (by omega)
      rw [Nat.add_mul, Nat.one_mul] at this; omega
    · subst heq
      have : ¬ x ≤ x' := fun hh => hc ⟨rfl, hh⟩
      omega
    · have : (h - 1 - y' + 1) * w ≤ (h - 1 - y) * w := Nat.mul_le_mul_right _ (by omega)
      rw [Nat.add_mul, Nat.one_mul] at this; omega

theorem paint_cons (pic : Nat → Nat → UInt8) (y x : Nat) (a : UInt8) (l : List UInt8) :
    Spec.paint pic y x (a :: l) = Spec.paint (Spec.paint pic y x [a]) y (x + 1) l := by
  funext y' x'
  unfold Spec.paint
  by_cases hy : y' = y
  · subst hy
    rcases Nat.lt_trichotomy x' x with h | h | h
    · simp [show ¬ x ≤ x' by omega, show ¬ x + 1 ≤ x' by omega]
    · subst h; simp
    · obtain ⟨d, rfl⟩ : ∃ d, x' = x + 1 + d := ⟨x' - (x + 1), by omega⟩
      simp [show x ≤ x + 1 + d by omega, show x + 1 + d - x = d + 1 by omega]
  · simp [hy]

theorem paint_nil (pic : Nat → Nat → UInt8) (y x : Nat) : Spec.paint pic y x [] = pic := by
  funext y' x'; simp [Spec.paint]

/-! ### 8 bits -/

theorem toNat_ofNat (n : Nat) (h : n ≤ 255) : (UInt8.ofNat n).toNat = n := by
  rw [UInt8.toNat_ofNat']; omega

theorem ofNat_ne (n k : Nat) (h : n ≤ 255) (hk : k ≤ 255) (hne : n ≠ k) : UInt8.ofNat n ≠ UInt8.ofNat k := by
  intro e
  have := congrArg UInt8.toNat e
  rw [toNat_ofNat n h, toNat_ofNat k hk] at this
  exact hne this

theorem ofNat_ne0 (n : Nat) (h : n ≤ 255) (hne : n ≠ 0) : ¬ UInt8.ofNat n = 0 := ofNat_ne n 0 h (by omega) hne
theorem ofNat_ne1 (n : Nat) (h : n ≤ 255) (hne : n ≠ 1) : ¬ UInt8.ofNat n = 1 := ofNat_ne n 1 h (by omega) hne
theorem ofNat_ne2 (n : Nat) (h : n ≤ 255) (hne : n ≠ 2) : ¬ UInt8.ofNat n = 2 := ofNat_ne n 2 h (by omega) hne

theorem u8_cons (b : UInt8) (s : List UInt8) : u8 (b :: s) = (b, s) := by cases s <;> rfl

theorem rle8_spec (w h : Nat) (rest : List UInt8) (eol : Bool) (cmds : List Spec.Cmd) (c : Spec.Canvas) (px : List UInt8)
    (hx : c.x ≤ w) (hy : c.y < h) (ha : Agree w h px c.pic) (hok : ∀ cmd ∈ cmds, cmd.Ok8)
    (hin : Spec.Inside Spec.Cmd.pixels8 w h c cmds) :
    ∃ px', rle8 w px (h - 1 - c.y) c.x (cmds.flatMap Spec.Cmd.enc ++ (Spec.finish eol ++ rest)) = .ok px' ∧
      Agree w h px' (Spec.drawAll Spec.Cmd.pixels8 c cmds).pic := by
  induction cmds generalizing c px with
  | nil =>
    refine ⟨px, ?_, ha⟩
    cases eol
    · simp [Spec.finish, rle8, u8_cons]
    · simp only [Spec.finish, if_true, List.flatMap_nil, List.nil_append, List.cons_append]
      rw [rle8]
      simp only [if_true, u8_cons]
      by_cases h0 : h - 1 - c.y = 0
      · rw [if_pos h0, if_pos (by simp [orZero, beVal])]
      · rw [if_neg h0, if_neg (by omega), rle8]
        simp [u8_cons]
  | cons cmd cmds ih =>
    obtain ⟨i1, i2, i3⟩ := hin
    have hc := hok cmd (by simp)
    have hok' : ∀ cmd ∈ cmds, cmd.Ok8 := fun d hd => hok d (by simp [hd])
    rw [List.flatMap_cons, List.append_assoc]
    have hdraw : Spec.drawAll Spec.Cmd.pixels8 c (cmd :: cmds) = Spec.drawAll Spec.Cmd.pixels8 (Spec.draw Spec.Cmd.pixels8 c cmd) cmds := rfl
    rw [hdraw]
    generalize hs : cmds.flatMap Spec.Cmd.enc ++ (Spec.finish eol ++ rest) = s at ih ⊢
    cases cmd with
    | run n b =>
      obtain ⟨n1, n2⟩ := hc
      simp only [Spec.draw, Spec.Cmd.pixels8, List.length_replicate] at i1
      simp only [Spec.Cmd.enc, List.cons_append, List.nil_append]
      rw [rle8, if_neg (ofNat_ne0 n n2 (by omega)), toNat_ofNat n n2, if_neg (by omega)]
      simp only [u8_cons]
      have hst := agree_store w h px c.pic ha c.y c.x (List.replicate n b) hy (by simpa using i1)
      have := ih (Spec.draw Spec.Cmd.pixels8 c (.run n b)) _ (by simpa [Spec.draw, Spec.Cmd.pixels8] using i1) hy hst hok' i3
      simpa only [Spec.draw, Spec.Cmd.pixels8, List.length_replicate] using this
    | abs n bs =>
      obtain ⟨n1, n2, n3⟩ := hc
      simp only [Spec.draw, Spec.Cmd.pixels8, n3] at i1
      simp only [Spec.Cmd.enc, List.cons_append, List.nil_append, List.append_assoc]
      rw [rle8.eq_def]
      simp only [if_true, u8_cons]
      rw [if_neg (ofNat_ne0 n n2 (by omega)), if_neg (ofNat_ne1 n n2 (by omega)),
        if_neg (ofNat_ne2 n n2 (by omega)), toNat_ofNat n n2, if_neg (by omega)]
      have hx := exact_append bs (List.replicate (bs.length % 2) 0 ++ s)
      rw [n3] at hx
      split
      · rename_i he; simp only [u8_cons, toNat_ofNat n n2] at he; rw [n3, hx] at he; cases he
      · rename_i l s' he
        simp only [u8_cons, toNat_ofNat n n2] at he
        rw [n3, hx] at he
        obtain ⟨rfl, rfl⟩ : bs = l ∧ List.replicate (n % 2) 0 ++ s = s' := by simpa using he
        have hsk : (if n % 2 = 1 then skip 1 (List.replicate (n % 2) 0 ++ s) else List.replicate (n % 2) 0 ++ s) = s := by
          split
          · rename_i h1; rw [h1]; rfl
          · rename_i h1; rw [show n % 2 = 0 by omega]; rfl
        rw [hsk]
        have hst := agree_store w h px c.pic ha c.y c.x bs hy (by omega)
        have := ih (Spec.draw Spec.Cmd.pixels8 c (.abs n bs)) _ (by simp only [Spec.draw, Spec.Cmd.pixels8]; omega) hy hst hok' i3
        simpa only [Spec.draw, Spec.Cmd.pixels8, n3] using this
    | eol =>
      simp only [Spec.draw] at i2
      simp only [Spec.Cmd.enc, List.cons_append, List.nil_append]
      rw [rle8]
      simp only [if_true, u8_cons]
      rw [if_neg (by omega), if_neg (by omega)]
      have := ih (Spec.draw Spec.Cmd.pixels8 c .eol) px (by simp [Spec.draw]) i2 ha hok' i3
      simp only [Spec.draw] at this
      rw [show h - 1 - c.y - 1 = h - 1 - (c.y + 1) by omega]
      exact this
    | delta dx dy =>
      obtain ⟨n1, n2⟩ := hc
      simp only [Spec.draw] at i1 i2
      simp only [Spec.Cmd.enc, List.cons_append, List.nil_append]
      rw [rle8]
      simp only [if_true, u8_cons, toNat_ofNat dx n1, toNat_ofNat dy n2]
      rw [if_neg (by decide), if_neg (by decide), if_neg (by omega)]
      have := ih (Spec.draw Spec.Cmd.pixels8 c (.delta dx dy)) px (by simp [Spec.draw]; omega) i2 ha hok' i3
      simp only [Spec.draw] at this
      rw [show h - 1 - c.y - dy = h - 1 - (c.y + dy) by omega]
      exact this

/-! ### 4 bits -/

theorem nibble_table : ∀ b : UInt8, b >>> 4 = UInt8.ofNat (b.toNat / 16) ∧ b &&& 0x0f = UInt8.ofNat (b.toNat % 16) := by decide +kernel

theorem run4_spec (w h : Nat) (y : Nat) (hy : y < h) (b : UInt8) (n : Nat) (i : Nat) (hi : i ≤ n) (px : List UInt8)
    (pic : Nat → Nat → UInt8) (ha : Agree w h px pic) (pos : Nat) (hp : pos + (n - i) ≤ w) :
    ∃ px', run4 w (h - 1 - y) b n px pos i = (px', pos + (n - i)) ∧
      Agree w h px' (Spec.paint pic y pos ((List.range' i (n - i)).map fun i => UInt8.ofNat (if i % 2 = 0 then b.toNat / 16 else b.toNat % 16))) := by
  obtain ⟨d, hd⟩ : ∃ d, n - i = d := ⟨_, rfl⟩
  induction d generalizing i px pic pos with
  | zero =>
    rw [run4, if_neg (by omega), hd]
    exact ⟨px, rfl, by simpa [paint_nil] using ha⟩
  | succ d ih =>
    rw [run4, if_pos (by omega)]
    obtain ⟨t1, t2⟩ := nibble_table b
    have hv : (if i % 2 = 0 then b >>> 4 else b &&& 0x0f) = UInt8.ofNat (if i % 2 = 0 then b.toNat / 16 else b.toNat % 16) := by
      rw [t1, t2]; split <;> rfl
    rw [hv]
    have hst := agree_store w h px pic ha y pos [UInt8.ofNat (if i % 2 = 0 then b.toNat / 16 else b.toNat % 16)] hy (by simp; omega)
    obtain ⟨px', e1, e2⟩ := ih (i + 1) (by omega) _ _ hst (pos + 1) (by omega) (by omega)
    refine ⟨px', by rw [e1]; congr 1; omega, ?_⟩
    have hk : n - (i + 1) = d := by omega
    rw [hk] at e2
    rw [hd, List.range'_succ, List.map_cons, paint_cons]
    exact e2

theorem abs4_spec (w h : Nat) (y : Nat) (hy : y < h) (bs s : List UInt8) (n : Nat) (hn : bs.length = (n + 1) / 2) (px : List UInt8)
    (pic : Nat → Nat → UInt8) (ha : Agree w h px pic) (pos : Nat) (hp : pos + n ≤ w) :
    ∃ px', abs4 w (n % 2 = 1) (h - 1 - y) px pos (bs ++ s) bs.length = (px', pos + n, s) ∧
      Agree w h px' (Spec.paint pic y pos ((bs.flatMap Spec.nibbles).take n)) := by
  induction bs generalizing n px pic pos with
  | nil =>
    have : n = 0 := by simp at hn; omega
    subst this
    exact ⟨px, rfl, by simpa [paint_nil] using ha⟩
  | cons b bs ih =>
    simp only [List.length_cons] at hn
    obtain ⟨t1, t2⟩ := nibble_table b
    simp only [List.length_cons, List.cons_append]
    rw [abs4, if_neg (by omega)]
    simp only [u8_cons, t1, t2, decide_eq_true_eq]
    have hst := agree_store w h px pic ha y pos [UInt8.ofNat (b.toNat / 16)] hy (by simp; omega)
    by_cases hlast : n = 1
    · have hl : bs = [] := List.length_eq_zero_iff.1 (by omega)
      subst hl hlast
      rw [if_pos (by simp)]
      exact ⟨_, rfl, by simpa [Spec.nibbles] using hst⟩
    · obtain ⟨k, rfl⟩ : ∃ k, n = k + 2 := ⟨n - 2, by omega⟩
      rw [if_neg (by omega), if_neg (by omega)]
      have hst2 := agree_store w h _ _ hst y (pos + 1) [UInt8.ofNat (b.toNat % 16)] hy (by simp; omega)
      obtain ⟨px', e1, e2⟩ := ih k (by omega) _ _ hst2 (pos + 2) (by omega)
      rw [show (k + 2) % 2 = k % 2 by omega]
      refine ⟨px', by rw [e1]; congr 2; omega, ?_⟩
      simp only [List.flatMap_cons, Spec.nibbles, List.cons_append, List.nil_append, List.take_succ_cons]
      rw [paint_cons, paint_cons]
      exact e2

theorem rle4_spec (w h : Nat) (s : List UInt8) (cmds : List Spec.Cmd) (c : Spec.Canvas) (px : List UInt8)
    (hx : c.x ≤ w) (hy : c.y < h) (ha : Agree w h px c.pic) (hok : ∀ cmd ∈ cmds, cmd.Ok4)
    (hin : Spec.Inside Spec.Cmd.pixels4 w h c cmds) :
    ∃ px', rle4 w px (h - 1 - c.y) c.x (cmds.flatMap Spec.Cmd.enc ++ s) =
        rle4 w px' (h - 1 - (Spec.drawAll Spec.Cmd.pixels4 c cmds).y) (Spec.drawAll Spec.Cmd.pixels4 c cmds).x s ∧
      Agree w h px' (Spec.drawAll Spec.Cmd.pixels4 c cmds).pic ∧ (Spec.drawAll Spec.Cmd.pixels4 c cmds).x ≤ w ∧
      (Spec.drawAll Spec.Cmd.pixels4 c cmds).y < h := by
  induction cmds generalizing c px with
  | nil => exact ⟨px, rfl, ha, hx, hy⟩
  | cons cmd cmds ih =>
    obtain ⟨i1, i2, i3⟩ := hin
    have hc := hok cmd (by simp)
    have hok' : ∀ cmd ∈ cmds, cmd.Ok4 := fun d hd => hok d (by simp [hd])
    rw [List.flatMap_cons, List.append_assoc]
    have hdraw : Spec.drawAll Spec.Cmd.pixels4 c (cmd :: cmds) = Spec.drawAll Spec.Cmd.pixels4 (Spec.draw Spec.Cmd.pixels4 c cmd) cmds := rfl
    rw [hdraw]
    generalize hs : cmds.flatMap Spec.Cmd.enc ++ s = s1 at ih ⊢
    cases cmd with
    | run n b =>
      obtain ⟨n1, n2⟩ := hc
      simp only [Spec.draw, Spec.Cmd.pixels4, List.length_map, List.length_range] at i1
      simp only [Spec.Cmd.enc, List.cons_append, List.nil_append]
      rw [rle4, if_pos hx]
      simp only [u8_cons]
      rw [dif_neg (ofNat_ne0 n n2 (by omega)), toNat_ofNat n n2, if_neg (by omega)]
      obtain ⟨px', e1, e2⟩ := run4_spec w h c.y hy b n 0 (by omega) px c.pic ha c.x (by omega)
      rw [e1]
      rw [Nat.sub_zero, ← List.range_eq_range'] at e2
      have := ih (Spec.draw Spec.Cmd.pixels4 c (.run n b)) px' (by simpa [Spec.draw, Spec.Cmd.pixels4] using i1) hy e2 hok' i3
      simpa only [Spec.draw, Spec.Cmd.pixels4, List.length_map, List.length_range, Nat.sub_zero] using this
    | abs n bs =>
      obtain ⟨n1, n2, n3⟩ := hc
      have hlen : ((bs.flatMap Spec.nibbles).take n).length = n := by
        rw [List.length_take, length_flatMap_const _ _ 2 (by simp [Spec.nibbles])]; omega
      simp only [Spec.draw, Spec.Cmd.pixels4, hlen] at i1
      simp only [Spec.Cmd.enc, List.cons_append, List.nil_append, List.append_assoc]
      rw [rle4, if_pos hx]
      simp only [u8_cons]
      rw [dif_pos trivial, dif_neg (ofNat_ne0 n n2 (by omega)), if_neg (ofNat_ne1 n n2 (by omega)),
        dif_neg (ofNat_ne2 n n2 (by omega)), toNat_ofNat n n2]
      obtain ⟨px', e1, e2⟩ := abs4_spec w h c.y hy bs (List.replicate (bs.length % 2) 0 ++ s1) n n3 px c.pic ha c.x i1
      rw [← n3, e1]
      simp only
      have hsk : (if bs.length % 2 = 1 then skip 1 (List.replicate (bs.length % 2) 0 ++ s1) else List.replicate (bs.length % 2) 0 ++ s1) = s1 := by
        split
        · rename_i h1; rw [h1]; rfl
        · rename_i h1; rw [show bs.length % 2 = 0 by omega]; rfl
      rw [hsk]
      have := ih (Spec.draw Spec.Cmd.pixels4 c (.abs n bs)) px' (by simp only [Spec.draw, Spec.Cmd.pixels4, hlen]; omega) hy e2 hok' i3
      simpa only [Spec.draw, Spec.Cmd.pixels4, hlen] using this
    | eol =>
      simp only [Spec.draw] at i2
      simp only [Spec.Cmd.enc, List.cons_append, List.nil_append]
      rw [rle4, if_pos hx]
      simp only [u8_cons]
      rw [dif_pos trivial, dif_pos trivial, if_neg (by omega)]
      have := ih (Spec.draw Spec.Cmd.pixels4 c .eol) px (by simp [Spec.draw]) i2 ha hok' i3
      simp only [Spec.draw] at this
      rw [show h - 1 - c.y - 1 = h - 1 - (c.y + 1) by omega]
      exact this
    | delta dx dy =>
      obtain ⟨n1, n2⟩ := hc
      simp only [Spec.draw] at i1 i2
      simp only [Spec.Cmd.enc, List.cons_append, List.nil_append]
      rw [rle4, if_pos hx]
      simp only [u8_cons, toNat_ofNat dx n1, toNat_ofNat dy n2]
      rw [dif_pos trivial, dif_neg (by decide), if_neg (by decide), dif_pos trivial, if_neg (by omega)]
      have := ih (Spec.draw Spec.Cmd.pixels4 c (.delta dx dy)) px (by simp [Spec.draw]; omega) i2 ha hok' i3
      simp only [Spec.draw] at this
      rw [show h - 1 - c.y - dy = h - 1 - (c.y + dy) by omega]
      exact this

theorem rle4_done (w : Nat) (px : List UInt8) (line pos : Nat) (rest : List UInt8) (hp : pos ≤ w) :
    rle4 w px line pos (Spec.finish false ++ rest) = .ok px := by
  simp only [Spec.finish, Bool.false_eq_true, if_false, List.nil_append, List.cons_append]
  rw [rle4, if_pos hp]
  simp [u8_cons]

/-! ### Whole files -/

theorem chunkRows_length (w h : Nat) (px : List UInt8) : (chunkRows w h px).length = h := by
  induction h generalizing px with
  | zero => rfl
  | succ h ih => simp [chunkRows, ih]

theorem chunkRows_eq (w h : Nat) (px : List UInt8) (f : Nat → Nat → UInt8) (hl : px.length = w * h)
    (hf : ∀ r < h, ∀ x < w, px[r * w + x]? = some (f r x)) :
    chunkRows w h px = (List.range h).map fun r => (List.range w).map fun x => f r x := by
  induction h generalizing px f with
  | zero => rfl
  | succ h ih =>
    rw [chunkRows, List.range_succ_eq_map, List.map_cons, List.map_map]
    have hlen : w * (h + 1) = w * h + w := by ring
    congr 1
    · apply List.ext_getElem?
      intro x
      rw [List.getElem?_take, List.getElem?_map]
      by_cases hx : x < w
      · have := hf 0 (by omega) x hx
        rw [Nat.zero_mul, Nat.zero_add] at this
        rw [if_pos hx, this, List.getElem?_range hx]; rfl
      · rw [if_neg hx, List.getElem?_eq_none (l := List.range w) (by simpa using hx)]; rfl
    · rw [ih (px.drop w) (fun r => f (r + 1)) (by simp; omega) (by
        intro r hr x hx
        have := hf (r + 1) (by omega) x hx
        rw [List.getElem?_drop]
        rw [show w + (r * w + x) = (r + 1) * w + x by ring]
        exact this)]
      rfl

theorem agree_blank (w h : Nat) : Agree w h (List.replicate (w * h) 0) (fun _ _ => 0) := by
  refine ⟨by simp, ?_⟩
  intro y hy x hx
  have := row_end w h y hy
  rw [List.getElem?_replicate, if_pos (by omega)]

/-- The body of a run-length coded file once its pixels are known. -/
theorem decodeBody_rle (hd : Hdr) (s px : List UInt8) (pic : Nat → Nat → UInt8) (p : List (UInt8 × UInt8 × UInt8 × UInt8))
    (hc : hd.comp = .rle4 ∨ hd.comp = .rle8) (hf : hd.fmt = .pal8) (hr : decodeRle hd s = .ok px) (ha : Agree hd.w hd.h px pic)
    (hp : hd.palette = (p.map fun c => (c.1, c.2.1, c.2.2.1)) ++ List.replicate (256 - p.length) (0, 0, 0))
    (hi : ∀ y < hd.h, ∀ x < hd.w, (pic y x).toNat < p.length) :
    decodeBody hd s = .ok ((List.range hd.h).flatMap fun r => (List.range hd.w).flatMap fun x => Spec.colour p (pic (hd.h - 1 - r) x).toNat) := by
  unfold decodeBody
  rw [if_pos hc, hr]
  simp only [hf, if_true]
  rw [flipRows_reverse, ← List.map_reverse, List.reverse_reverse,
    chunkRows_eq hd.w hd.h px (fun r x => pic (hd.h - 1 - r) x) ha.1 (by
      intro r hr x hx
      have := ha.2 (hd.h - 1 - r) (by omega) x hx
      rwa [show hd.h - 1 - (hd.h - 1 - r) = r by omega] at this), List.map_map]
  congr 1
  rw [List.flatMap]
  congr 1
  apply List.map_congr_left
  intro r hr
  rw [List.mem_range] at hr
  simp only [Function.comp, List.flatMap_map]
  rw [List.flatMap, List.flatMap]
  congr 1
  apply List.map_congr_left
  intro x hx
  rw [List.mem_range] at hx
  rw [hp, palEntry_spec p _ _ (hi _ (by omega) x hx)]

/-- The file theorem shared by both depths. -/
theorem decode_rle_file (o : Opts) (m : Spec.Misc) (hm : m.Ok) (w h clr depth cc : Nat) (comp : Comp)
    (hdep : depth = 8 ∧ cc = 1 ∧ comp = .rle8 ∨ depth = 4 ∧ cc = 2 ∧ comp = .rle4)
    (p : List (UInt8 × UInt8 × UInt8 × UInt8)) (gap body px : List UInt8) (pic : Nat → Nat → UInt8) (hd : Spec.DimsOk o w h)
    (hclr : Spec.ClrOk depth clr p.length) (hgap : 54 + (4 * p.length + gap.length) < 2 ^ 32)
    (hlen : 12 ≤ (Spec.encPal p ++ (gap ++ body)).length)
    (hrle : ∀ hd' : Hdr, hd'.w = w → hd'.h = h → hd'.depth = depth → decodeRle hd' body = .ok px) (ha : Agree w h px pic)
    (hi : ∀ y < h, ∀ x < w, (pic y x).toNat < p.length) :
    ∃ hdr, decode o (Spec.header m w h false depth cc (54 + (4 * p.length + gap.length)) clr ++ (Spec.encPal p ++ (gap ++ body))) =
        .ok (hdr, (List.range h).flatMap fun r => (List.range w).flatMap fun x => Spec.colour p (pic (h - 1 - r) x).toNat) ∧
      hdr.w = w ∧ hdr.h = h ∧ hdr.fmt = .pal8 := by
  have hp0 : 0 < p.length := by
    obtain ⟨h1, h2⟩ := hclr
    have : 0 < 2 ^ depth := by positivity
    omega
  refine decode_with_body o m hm w h false depth cc _ clr comp _ .pal8
    ((p.map fun c => (c.1, c.2.1, c.2.2.1)) ++ List.replicate (256 - p.length) (0, 0, 0)) _ hd (by omega) (by omega)
    (by rcases hdep with ⟨_, rfl, rfl⟩ | ⟨_, rfl, rfl⟩ <;> rfl) (by omega) (by omega) hgap hlen ?_ ?_ ?_
  · unfold pixFmt
    rw [if_neg (by omega), if_neg (by omega), if_neg (by omega)]
    rcases hdep with ⟨rfl, _⟩ | ⟨rfl, _⟩
    · rw [if_pos rfl, if_pos (decide_eq_true (by omega))]
    · rw [if_neg (by omega), if_pos (by omega), if_pos (decide_eq_true (by omega))]
  · rw [if_pos rfl]; exact palette_spec o m hm w h false depth cc _ clr p _ (by omega) hclr
  · have hl : (Spec.encPal p).length = 4 * p.length := by
      rw [Spec.encPal, Spec.enc32, length_flatMap_const _ _ 4 (by simp), Nat.mul_comm]
    rw [← List.append_assoc, List.drop_append_of_le_length (by simp [hl]), List.drop_of_length_le (by simp [hl]), List.nil_append]
    exact decodeBody_rle _ _ px pic p (by rcases hdep with ⟨_, _, rfl⟩ | ⟨_, _, rfl⟩ <;> simp) rfl (hrle _ rfl rfl rfl) ha rfl hi

/-- **C55**: for every list of well formed commands that stays inside the bitmap, decoding an RLE8 file gives the drawn picture, top row
    first, whether or not the last row ends with an end-of-line mark. -/
theorem c55_rle8 (o : Opts) (m : Spec.Misc) (hm : m.Ok) (w h clr : Nat) (p : List (UInt8 × UInt8 × UInt8 × UInt8)) (gap rest : List UInt8)
    (eol : Bool) (cmds : List Spec.Cmd) (hd : Spec.DimsOk o w h) (hclr : Spec.ClrOk 8 clr p.length)
    (hgap : 54 + (4 * p.length + gap.length) < 2 ^ 32)
    (hlen : 12 ≤ (Spec.encPal p ++ (gap ++ (cmds.flatMap Spec.Cmd.enc ++ (Spec.finish eol ++ rest)))).length)
    (hok : ∀ cmd ∈ cmds, cmd.Ok8) (hin : Spec.Inside Spec.Cmd.pixels8 w h Spec.blank cmds)
    (hi : ∀ y < h, ∀ x < w, ((Spec.drawAll Spec.Cmd.pixels8 Spec.blank cmds).pic y x).toNat < p.length) :
    ∃ hdr, decode o (Spec.header m w h false 8 1 (54 + (4 * p.length + gap.length)) clr ++
        (Spec.encPal p ++ (gap ++ (cmds.flatMap Spec.Cmd.enc ++ (Spec.finish eol ++ rest))))) =
        .ok (hdr, (List.range h).flatMap fun r => (List.range w).flatMap fun x =>
          Spec.colour p ((Spec.drawAll Spec.Cmd.pixels8 Spec.blank cmds).pic (h - 1 - r) x).toNat) ∧
      hdr.w = w ∧ hdr.h = h ∧ hdr.fmt = .pal8 := by
  obtain ⟨px, e1, e2⟩ := rle8_spec w h rest eol cmds Spec.blank _ (by simp [Spec.blank]) hd.h0 (agree_blank w h) hok hin
  refine decode_rle_file o m hm w h clr 8 1 .rle8 (Or.inl ⟨rfl, rfl, rfl⟩) p gap _ px _ hd hclr hgap hlen ?_ e2 hi
  intro hd' h1 h2 h3
  unfold decodeRle
  rw [if_pos h3, h1, h2]
  exact e1

/-- **C56**: the same for RLE4.  The last row must not end with an end-of-line mark (`c56_last_eol_rejected`). -/
theorem c56_rle4_partial (o : Opts) (m : Spec.Misc) (hm : m.Ok) (w h clr : Nat) (p : List (UInt8 × UInt8 × UInt8 × UInt8))
    (gap rest : List UInt8)
    (cmds : List Spec.Cmd) (hd : Spec.DimsOk o w h) (hclr : Spec.ClrOk 4 clr p.length)
    (hgap : 54 + (4 * p.length + gap.length) < 2 ^ 32)
    (hlen : 12 ≤ (Spec.encPal p ++ (gap ++ (cmds.flatMap Spec.Cmd.enc ++ (Spec.finish false ++ rest)))).length)
    (hok : ∀ cmd ∈ cmds, cmd.Ok4) (hin : Spec.Inside Spec.Cmd.pixels4 w h Spec.blank cmds)
    (hi : ∀ y < h, ∀ x < w, ((Spec.drawAll Spec.Cmd.pixels4 Spec.blank cmds).pic y x).toNat < p.length) :
    ∃ hdr, decode o (Spec.header m w h false 4 2 (54 + (4 * p.length + gap.length)) clr ++
        (Spec.encPal p ++ (gap ++ (cmds.flatMap Spec.Cmd.enc ++ (Spec.finish false ++ rest))))) =
        .ok (hdr, (List.range h).flatMap fun r => (List.range w).flatMap fun x =>
          Spec.colour p ((Spec.drawAll Spec.Cmd.pixels4 Spec.blank cmds).pic (h - 1 - r) x).toNat) ∧
      hdr.w = w ∧ hdr.h = h ∧ hdr.fmt = .pal8 := by
  obtain ⟨px, e1, e2, e3, e4⟩ := rle4_spec w h (Spec.finish false ++ rest) cmds Spec.blank _ (by simp [Spec.blank]) hd.h0 (agree_blank w h) hok hin
  rw [rle4_done _ _ _ _ _ e3] at e1
  refine decode_rle_file o m hm w h clr 4 2 .rle4 (Or.inr ⟨rfl, rfl, rfl⟩) p gap _ px _ hd hclr hgap hlen ?_ e2 hi
  intro hd' h1 h2 h3
  unfold decodeRle
  rw [if_neg (by omega), if_pos h3, h1, h2]
  exact e1

/-! ### Concrete files -/

/-- A 4x2 drawing: bottom row `1 1 1 0`, then up, three literal pixels from column 1. -/
def Ex.cmds : List Spec.Cmd := [.run 3 1, .eol, .delta 1 0, .abs 3 [1, 0, 1]]

example : Spec.DimsOk Ex.o 4 2 ∧ Spec.ClrOk 8 2 2 ∧ (∀ cmd ∈ Ex.cmds, cmd.Ok8) ∧ Spec.Inside Spec.Cmd.pixels8 4 2 Spec.blank Ex.cmds ∧
    (∀ y < 2, ∀ x < 4, ((Spec.drawAll Spec.Cmd.pixels8 Spec.blank Ex.cmds).pic y x).toNat < 2) :=
  ⟨⟨by decide, by decide, by decide, by decide, by decide, by decide, by decide⟩, by unfold Spec.ClrOk; decide, by decide,
    by simp [Ex.cmds, Spec.Inside, Spec.draw, Spec.blank, Spec.Cmd.pixels8], by decide⟩

/-- A 4x2 drawing of 4 bits: bottom row `1 0 1 0`, top row `0 1 1 0`. -/
def Ex.cmds4 : List Spec.Cmd := [.run 4 0x10, .eol, .abs 3 [0x01, 0x10]]

example : Spec.DimsOk Ex.o 4 2 ∧ Spec.ClrOk 4 2 2 ∧ (∀ cmd ∈ Ex.cmds4, cmd.Ok4) ∧ Spec.Inside Spec.Cmd.pixels4 4 2 Spec.blank Ex.cmds4 ∧
    (∀ y < 2, ∀ x < 4, ((Spec.drawAll Spec.Cmd.pixels4 Spec.blank Ex.cmds4).pic y x).toNat < 2) :=
  ⟨⟨by decide, by decide, by decide, by decide, by decide, by decide, by decide⟩, by unfold Spec.ClrOk; decide, by decide,
    by simp [Ex.cmds4, Spec.Inside, Spec.draw, Spec.blank, Spec.Cmd.pixels4, Spec.nibbles], by decide⟩

/-- **C56** fails for every drawing whose last (top) row ends with an end-of-line mark before the end-of-bitmap mark: the data is rejected,
    though the same marks are accepted in RLE8 (`c55_rle8`). -/
theorem c56_last_eol_rejected (hd : Hdr) (hdep : hd.depth = 4) (h0 : 0 < hd.h) (cmds : List Spec.Cmd) (rest : List UInt8)
    (hok : ∀ cmd ∈ cmds, cmd.Ok4) (hin : Spec.Inside Spec.Cmd.pixels4 hd.w hd.h Spec.blank cmds)
    (htop : (Spec.drawAll Spec.Cmd.pixels4 Spec.blank cmds).y + 1 = hd.h) :
    decodeRle hd (cmds.flatMap Spec.Cmd.enc ++ (Spec.finish true ++ rest)) = .error .rle := by
  obtain ⟨px, e1, e2, e3, e4⟩ := rle4_spec hd.w hd.h (Spec.finish true ++ rest) cmds Spec.blank _ (by simp [Spec.blank]) h0
    (agree_blank hd.w hd.h) hok hin
  unfold decodeRle
  rw [if_neg (by omega), if_pos hdep]
  refine Eq.trans e1 ?_
  simp only [Spec.finish, if_true, List.nil_append, List.cons_append]
  rw [rle4, if_pos e3]
  simp only [u8_cons]
  rw [dif_pos trivial, dif_pos trivial, if_pos (by omega)]

example : (Spec.drawAll Spec.Cmd.pixels4 Spec.blank Ex.cmds4).y + 1 = 2 := by decide

end Zune.Bmp
