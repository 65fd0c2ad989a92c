/- PNG: what the encoder writes is a file of the specification. -/
import Verif.Png.File

namespace Zune.Png

open Zune.Stream

theorem writeHeaderFn_eq (name data : List UInt8) (h : name.length = 4) : writeHeaderFn name data = Spec.chunk name data := by
  unfold writeHeaderFn Spec.chunk
  rw [Inflate.c12_calc_crc, List.length_append, h, Nat.add_sub_cancel_left]
  simp [Spec.crc]

theorem writeChunk_eq (name data : List UInt8) : writeChunk name data = Spec.chunk name data := by
  have hc := Inflate.c12_calc_crc (name ++ data)
  unfold Inflate.calcCrc at hc
  have h1 : (0xffffffff : Nat) < 2 ^ 32 := by decide
  rw [Inflate.c12_crc _ _ h1, Inflate.crc_append] at hc
  unfold writeChunk Spec.chunk Spec.crc
  rw [Inflate.c12_crc name _ h1, Inflate.c12_crc data _ (Inflate.crc_lt _ _ h1), hc]

theorem chunks_spec (n : Nat) (h0 : 0 < n) (l : List UInt8) :
    (chunks n l).flatten = l ∧ ∀ c ∈ chunks n l, c.length ≤ n := by
  fun_induction chunks n l with
  | case1 l h =>
    rcases h with h | h
    · omega
    · subst h; simp
  | case2 l h ih =>
    refine ⟨by rw [List.flatten_cons, ih.1, List.take_append_drop], ?_⟩
    intro c hc
    rcases List.mem_cons.mp hc with rfl | hc
    · rw [List.length_take]; omega
    · exact ih.2 c hc

/-- The rows of a picture, as slices of its bytes. -/
def Spec.slices (l n : Nat) (data : List UInt8) : List (List UInt8) := (List.range n).map fun i => (data.drop (i * l)).take l

/-- The filter types the encoder chooses: none for the first row, then Up. -/
def Spec.upRows (rows : List (List UInt8)) : List (Nat × List UInt8) := rows.mapIdx fun i r => (if i = 0 then 0 else 2, r)

theorem filterRow_none (n : Nat) (prev row : List UInt8) : Spec.filterRow 0 n prev row = row := by
  unfold Spec.filterRow
  simp only [Spec.predict]
  apply List.ext_getElem?
  intro i
  rw [List.getElem?_mapIdx]
  cases row[i]? with
  | none => rfl
  | some x =>
    have := x.toNat_lt
    simp only [Option.map_some, Option.some.injEq]
    apply UInt8.toNat_inj.mp
    simp only [UInt8.toNat_ofNat']
    omega

theorem filterRows_tail (o : EncOpts) (data : List UInt8) (hl : 0 < o.scanline) :
    ∀ (n i : Nat), 0 < i → (i + n) * o.scanline ≤ data.length →
      filterRows o data n i = Spec.stream (o.color.comps * o.size) ((data.drop ((i - 1) * o.scanline)).take o.scanline)
        ((List.range' i n).map fun j => (2, (data.drop (j * o.scanline)).take o.scanline)) := by
  intro n
  induction n with
  | zero => intros; rfl
  | succ n ih =>
    intro i hi hlen
    have e1 : i * o.scanline = (i - 1) * o.scanline + o.scanline := by
      obtain ⟨k, rfl⟩ : ∃ k, i = k + 1 := ⟨i - 1, by omega⟩
      rw [Nat.add_sub_cancel, Nat.add_mul, Nat.one_mul]
    have e2 : (i + (n + 1)) * o.scanline = i * o.scanline + o.scanline + n * o.scanline := by ring
    have hpe : (data.take (i * o.scanline)).drop ((i - 1) * o.scanline) = (data.drop ((i - 1) * o.scanline)).take o.scanline := by
      rw [List.drop_take]; congr 1; omega
    have hpl : ((data.drop ((i - 1) * o.scanline)).take o.scanline).length = o.scanline := by
      rw [List.length_take, List.length_drop]; omega
    have hcl : ((data.drop (i * o.scanline)).take o.scanline).length = o.scanline := by
      rw [List.length_take, List.length_drop]; omega
    rw [filterRows, List.range'_succ, List.map_cons, Spec.stream]
    rw [if_pos hi, hpe, ih (i + 1) (by omega) (by rw [e2, e1] at hlen; have : (i + 1 + n) * o.scanline = i * o.scanline + o.scanline + n * o.scanline := by ring
                                                  omega), Nat.add_sub_cancel]
    have hch : chooseFilter ((data.drop ((i - 1) * o.scanline)).take o.scanline) = 2 := by
      unfold chooseFilter
      rw [if_neg]
      rw [List.isEmpty_iff]
      intro e; rw [e] at hpl; simp at hpl; omega
    rw [hch]
    unfold filterScanline
    rw [if_neg (by decide), if_neg (by decide), c16_encoder_up _ _ _ (by omega)]
    rfl

theorem filterRows_eq (o : EncOpts) (data : List UInt8) (hl : 0 < o.scanline) (n : Nat) (hlen : n * o.scanline ≤ data.length) :
    filterRows o data n 0 = Spec.stream (o.color.comps * o.size) [] (Spec.upRows (Spec.slices o.scanline n data)) := by
  cases n with
  | zero => rfl
  | succ n =>
    rw [filterRows, if_neg (Nat.lt_irrefl 0), filterRows_tail o data hl n 1 (by omega) (by rw [Nat.add_comm]; exact hlen)]
    unfold Spec.slices Spec.upRows
    rw [List.range_eq_range', List.range'_succ, List.map_cons, List.mapIdx_cons, Spec.stream]
    simp only [Nat.zero_mul, List.drop_zero, Nat.sub_self, if_true, filterRow_none]
    have hm : ((List.range' 1 n).map fun i => (data.drop (i * o.scanline)).take o.scanline).mapIdx
          (fun i r => ((if i + 1 = 0 then 0 else 2 : Nat), r)) =
        (List.range' 1 n).map fun j => (2, (data.drop (j * o.scanline)).take o.scanline) := by
      apply List.ext_getElem?
      intro i
      rw [List.getElem?_mapIdx, List.getElem?_map, List.getElem?_map]
      cases (List.range' 1 n)[i]? <;> rfl
    rw [hm]
    unfold chooseFilter filterScanline
    rfl

theorem scan_pos (o : EncOpts) (hw : 0 < o.width) : 0 < o.scanline := by
  unfold EncOpts.scanline EncOpts.size
  have : 0 < o.color.comps := comps_pos _
  split <;> positivity

/-- IHDR of an encoded picture. -/
def EncOpts.header (o : EncOpts) : Spec.Header :=
  { width := o.width, height := o.height, depth := if o.deep then 16 else 8, color := o.color }

/-- The chunks behind IHDR. -/
def EncOpts.chunkList (o : EncOpts) (z : List UInt8) : List (List UInt8 × List UInt8) :=
  (o.exif.toList.map fun e => (neXIf, e)) ++ (o.gamma.toList.map fun g => (ngAMA, beBytes 4 g)) ++
    (chunks 8192 z).map fun d => (nIDAT, d)

theorem encode_eq (o : EncOpts) (hc : o.color ≠ .palette) (data : List UInt8)
    (hlen : data.length = o.width * o.height * o.size * o.color.comps) (hsz : data.length < 2 ^ 64) (z : List UInt8)
    (hz : Inflate.encodeZlib (filterRows o data o.height 0) = some z) :
    encode o data = .ok (Spec.file o.header (o.chunkList z) []) := by
  have hih : ihdr o = some o.header.bytes := by
    unfold ihdr Spec.Header.bytes EncOpts.header Spec.Header.colorByte
    cases h : o.color <;> first | exact absurd h hc | (cases o.deep <;> simp [h])
  unfold encode
  rw [hlen] at hsz
  simp only [hz]
  rw [if_neg (by omega)]
  have hsig : beBytes 8 signature = ([0x89, 0x50, 0x4e, 0x47, 0x0d, 0x0a, 0x1a, 0x0a] : List UInt8) := by decide +kernel
  have he : encodeHeaders o = some (beBytes 8 signature ++ Spec.chunk nIHDR o.header.bytes ++
      (o.exif.toList.map fun e => (neXIf, e)).flatMap (fun p => Spec.chunk p.1 p.2) ++
      (o.gamma.toList.map fun g => (ngAMA, beBytes 4 g)).flatMap (fun p => Spec.chunk p.1 p.2)) := by
    unfold encodeHeaders
    rw [hih]
    simp only [Option.bind_eq_bind, Option.bind_some, writeHeaderFn_eq nIHDR _ rfl]
    cases o.exif <;> cases o.gamma <;> simp [writeHeaderFn_eq neXIf _ rfl, writeHeaderFn_eq ngAMA _ rfl]
  rw [he]
  simp only
  rw [writeHeaderFn_eq nIEND _ rfl, hsig]
  have hid : (chunks 8192 z).flatMap (writeChunk nIDAT) = ((chunks 8192 z).map fun d => (nIDAT, d)).flatMap fun p => Spec.chunk p.1 p.2 := by
    rw [List.flatMap_map]
    exact flatMap_congr' _ _ _ fun d _ => writeChunk_eq _ _
  rw [hid]
  unfold Spec.file EncOpts.chunkList
  rw [List.flatMap_append, List.flatMap_append]
  simp only [List.append_assoc, List.append_nil, nIHDR, nIEND]

/-- The decoder's state after the headers of an encoded picture. -/
def EncOpts.st (o : EncOpts) (z : List UInt8) : St := { o.header.st with exif := o.exif, gamma := o.gamma, idat := z }

theorem applyAll_append : ∀ (a b : List (List UInt8 × List UInt8)) (st : St),
    Spec.applyAll st (a ++ b) = (Spec.applyAll st a).bind fun st => Spec.applyAll st b
  | [], b, st => rfl
  | (n, d) :: a, b, st => by
    rw [List.cons_append, Spec.applyAll, Spec.applyAll]
    cases Spec.apply st n d with
    | none => rfl
    | some s => exact applyAll_append a b s

theorem applyAll_idats (ds : List (List UInt8)) : ∀ st : St,
    Spec.applyAll st (ds.map fun d => (nIDAT, d)) = some { st with idat := st.idat ++ ds.flatten } := by
  induction ds with
  | nil => intro st; simp [Spec.applyAll]
  | cons d ds ih =>
    intro st
    rw [List.map_cons, Spec.applyAll]
    have e : Spec.apply st nIDAT d = some { st with idat := st.idat ++ d } := if_pos rfl
    rw [e, Option.bind_some, ih]
    simp

theorem chunkList_apply (o : EncOpts) (z : List UInt8) (hg : ∀ g ∈ o.gamma, g < 2 ^ 32)
    (hx : ∀ e ∈ o.exif, e.take 4 = [73, 73, 42, 0] ∨ e.take 4 = [77, 77, 0, 42]) :
    Spec.applyAll o.header.st (o.chunkList z) = some (o.st z) := by
  have e1 : Spec.applyAll o.header.st (o.exif.toList.map fun e => (neXIf, e)) = some { o.header.st with exif := o.exif } := by
    cases h : o.exif with
    | none => rfl
    | some e =>
      have : Spec.apply o.header.st neXIf e = some { o.header.st with exif := some e } := by
        unfold Spec.apply neXIf
        rw [if_neg (by decide), if_neg (by decide), if_neg (by decide), if_neg (by decide), if_pos rfl, if_pos (hx e h)]
      simp only [Option.toList_some, List.map_cons, List.map_nil, Spec.applyAll, this, Option.bind_some]
  have e2 : Spec.applyAll { o.header.st with exif := o.exif } (o.gamma.toList.map fun g => (ngAMA, beBytes 4 g)) =
      some { o.header.st with exif := o.exif, gamma := o.gamma } := by
    cases h : o.gamma with
    | none => rfl
    | some g =>
      have : Spec.apply { o.header.st with exif := o.exif } ngAMA (beBytes 4 g) =
          some { o.header.st with exif := o.exif, gamma := some g } := by
        unfold Spec.apply ngAMA
        rw [if_neg (by decide), if_neg (by decide), if_neg (by decide), if_pos rfl, if_pos (beBytes_length _ _), beVal_beBytes,
          Nat.mod_eq_of_lt (by have := hg g h; norm_num; omega)]
      simp only [Option.toList_some, List.map_cons, List.map_nil, Spec.applyAll, this, Option.bind_some]
  unfold EncOpts.chunkList
  rw [applyAll_append, applyAll_append, e1, Option.bind_some, e2, Option.bind_some, applyAll_idats, (chunks_spec 8192 (by decide) z).1]
  rfl

theorem chunkList_framed (o : EncOpts) (z : List UInt8) (hx : ∀ e ∈ o.exif, e.length < 2 ^ 32) : Spec.Framed (o.chunkList z) := by
  intro p hp
  unfold EncOpts.chunkList at hp
  rcases List.mem_append.mp hp with hp | hp
  · rcases List.mem_append.mp hp with hp | hp
    · obtain ⟨e, he, rfl⟩ := List.mem_map.mp hp
      exact ⟨rfl, hx e (by simpa using he)⟩
    · obtain ⟨g, -, rfl⟩ := List.mem_map.mp hp
      exact ⟨rfl, by rw [beBytes_length]; decide⟩
  · obtain ⟨d, hd, rfl⟩ := List.mem_map.mp hp
    exact ⟨rfl, lt_of_le_of_lt ((chunks_spec 8192 (by decide) z).2 d hd) (by decide)⟩

theorem chunkList_idats (o : EncOpts) (z : List UInt8) : Spec.idats (o.chunkList z) = z := by
  unfold Spec.idats EncOpts.chunkList
  have h3 : ((chunks 8192 z).map fun d => (nIDAT, d)).filter (fun p => decide (p.1 = ([0x49, 0x44, 0x41, 0x54] : List UInt8))) =
      (chunks 8192 z).map fun d => (nIDAT, d) := by
    apply List.filter_eq_self.mpr
    intro p hp
    obtain ⟨d, -, rfl⟩ := List.mem_map.mp hp
    show decide (nIDAT = ([0x49, 0x44, 0x41, 0x54] : List UInt8)) = true
    decide
  have h1 : (o.exif.toList.map fun e => (neXIf, e)).filter (fun p => decide (p.1 = ([0x49, 0x44, 0x41, 0x54] : List UInt8))) = [] := by
    apply List.filter_eq_nil_iff.mpr
    intro p hp
    obtain ⟨d, -, rfl⟩ := List.mem_map.mp hp
    show ¬ decide (neXIf = ([0x49, 0x44, 0x41, 0x54] : List UInt8)) = true
    decide
  have h2 : (o.gamma.toList.map fun g => (ngAMA, beBytes 4 g)).filter (fun p => decide (p.1 = ([0x49, 0x44, 0x41, 0x54] : List UInt8))) = [] := by
    apply List.filter_eq_nil_iff.mpr
    intro p hp
    obtain ⟨d, -, rfl⟩ := List.mem_map.mp hp
    show ¬ decide (ngAMA = ([0x49, 0x44, 0x41, 0x54] : List UInt8)) = true
    decide
  rw [List.filter_append, List.filter_append, h1, h2, h3]
  simp only [List.nil_append, List.flatMap_map]
  rw [show (fun a : List UInt8 => a) = id from rfl]
  rw [List.flatMap_id]
  exact (chunks_spec 8192 (by decide) z).1

/-- The samples of pixel `(y, x)` in interleaved bytes. -/
def EncOpts.pix (o : EncOpts) (data : List UInt8) (y x : Nat) : List Nat :=
  (List.range o.color.comps).map fun i =>
    Spec.sample (if o.deep then 16 else 8) ((data.drop (y * o.scanline)).take o.scanline) (x * o.color.comps + i)

theorem slice_length (l n : Nat) (data : List UInt8) (h : data.length = n * l) (y : Nat) (hy : y < n) :
    ((data.drop (y * l)).take l).length = l := by
  rw [List.length_take, List.length_drop, h]
  have : (y + 1) * l ≤ n * l := Nat.mul_le_mul_right _ hy
  rw [Nat.add_mul, Nat.one_mul] at this
  omega

theorem slices_flatten (l n : Nat) (data : List UInt8) (h : data.length = n * l) :
    (List.range n).flatMap (fun y => (data.drop (y * l)).take l) = data := by
  induction n generalizing data with
  | zero => have : data = [] := List.length_eq_zero_iff.mp (by omega)
            subst this; rfl
  | succ n ih =>
    rw [List.range_succ_eq_map, List.flatMap_cons, List.flatMap_map]
    have e : (List.range n).flatMap (fun y => (data.drop ((y + 1) * l)).take l) = (data.drop l) := by
      rw [← ih (data.drop l) (by rw [List.length_drop, h, Nat.add_mul]; omega)]
      have : ∀ y, (data.drop ((y + 1) * l)).take l = ((data.drop l).drop (y * l)).take l := by
        intro y; rw [List.drop_drop]; congr 2; ring
      simp only [this]
    rw [e]
    simp

theorem picture_eq (o : EncOpts) (c : Ctx) (hcc : c.color = o.color) (hd : c.depth = if o.deep then 16 else 8) (ht : c.trns = none)
    (hpal : o.color ≠ .palette) (ha : c.wantAlpha = true → o.color.hasAlpha = true) (data : List UInt8)
    (hlen : data.length = o.height * o.scanline) : Spec.picture c o.width o.height (o.pix data) = data := by
  have hsl : o.scanline = o.width * o.color.comps * o.size := by unfold EncOpts.scanline; ring
  have key : ∀ y ∈ List.range o.height, ((List.range o.width).flatMap fun x =>
      Spec.pixel c.color c.depth (c.plte.getD []) c.trns (c.wantAlpha || c.trns.isSome) (o.pix data y x)) =
      (data.drop (y * o.scanline)).take o.scanline := by
    intro y hy
    have hrl := slice_length _ _ data hlen y (List.mem_range.mp hy)
    have hpx : ∀ s : List Nat, Spec.pixel c.color c.depth (c.plte.getD []) c.trns (c.wantAlpha || c.trns.isSome) s =
        s.flatMap (Spec.sampleBytes (if o.deep then 16 else 8)) := by
      intro s
      unfold Spec.pixel
      rw [hcc, hd, ht]
      cases h : o.color with
      | palette => exact absurd h hpal
      | luma => rw [h] at ha; cases hwa : c.wantAlpha <;> simp_all [Color.hasAlpha]
      | rgb => rw [h] at ha; cases hwa : c.wantAlpha <;> simp_all [Color.hasAlpha]
      | lumaA => rfl
      | rgba => rfl
    simp only [hpx]
    unfold EncOpts.pix
    generalize (data.drop (y * o.scanline)).take o.scanline = row at hrl ⊢
    simp only [List.flatMap_map]
    have e : ((List.range o.width).flatMap fun x => (List.range o.color.comps).flatMap fun i =>
        Spec.sampleBytes (if o.deep then 16 else 8) (Spec.sample (if o.deep then 16 else 8) row (x * o.color.comps + i))) =
        (List.range (o.width * o.color.comps)).flatMap fun k =>
          Spec.sampleBytes (if o.deep then 16 else 8) (Spec.sample (if o.deep then 16 else 8) row k) := by
      have := range_mul_map o.width o.color.comps fun k =>
          Spec.sampleBytes (if o.deep then 16 else 8) (Spec.sample (if o.deep then 16 else 8) row k)
      rw [List.flatMap_def (l := List.range (o.width * o.color.comps)), this]
      simp only [List.flatMap_def, List.flatten_flatten, List.map_map, Function.comp_def]
    rw [e]
    cases hdp : o.deep with
    | false =>
      simp only [Bool.false_eq_true, if_false]
      have h2 : o.width * o.color.comps = row.length := by rw [hrl, hsl, EncOpts.size, hdp]; simp
      rw [h2]; exact (row8 row).symm
    | true =>
      simp only [if_true]
      exact (row16 _ row (by rw [hrl, hsl, EncOpts.size, hdp]; simp)).symm
  unfold Spec.picture
  rw [flatMap_congr' _ _ _ key]
  exact slices_flatten _ _ data hlen

end Zune.Png
