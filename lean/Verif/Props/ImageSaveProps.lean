import Verif.Props.ImageIOProps
/-
C71: saving images
-/
namespace Mrcal.ImageIO
open Mrcal.Name

/-! ### what we expect: the netpbm formats -/

/-- whitespace -/
def Space (b : UInt8) : Prop := b = 32 ∨ (9 ≤ b ∧ b ≤ 13)

/-- a decimal number -/
def Decimal (s : List UInt8) (n : Nat) : Prop := s ≠ [] ∧ (∀ b ∈ s, 48 ≤ b ∧ b ≤ 57) ∧ s.foldl (fun v b => 10 * v + (b.toNat - 48)) 0 = n

/-- 16-bit values: the most significant byte is first -/
inductive BigEndian : List UInt8 → List Nat → Prop
  | nil : BigEndian [] []
  | cons {hi lo : UInt8} {r : List UInt8} {s : List Nat} (h : BigEndian r s) : BigEndian (hi :: lo :: r) ((256 * hi.toNat + lo.toNat) :: s)

/-- a .pgm (1 channel) or .ppm (3 channels: red, green, blue) file; http://netpbm.sourceforge.net/doc/pgm.html. The values are in rows from the top; each row from the left -/
def Netpbm (channels w h maxval : Nat) (samples : List Nat) (file : List UInt8) : Prop :=
  ∃ s1 s2 s3 tw th tm s4 raster, (s1 ≠ [] ∧ s2 ≠ [] ∧ s3 ≠ []) ∧ (∀ b ∈ s1 ++ s2 ++ s3, Space b) ∧ Decimal tw w ∧ Decimal th h ∧ Decimal tm maxval ∧ Space s4 ∧
    file = [80, if channels = 1 then 53 else 54] ++ s1 ++ tw ++ s2 ++ th ++ s3 ++ tm ++ s4 :: raster ∧ samples.length = channels * w * h ∧
    (if maxval < 256 then raster.map UInt8.toNat = samples else BigEndian raster samples)

/-- the values of a gray image, in the order of the file -/
def graySamples (m : Mem) (im : Img) : List Nat :=
  (List.range im.height).flatMap fun (y : Nat) => (List.range im.width).map fun (x : Nat) => (m (im.data + y * im.stride + x)).toNat

/-- 16-bit values, least significant byte first -/
def gray16Samples (m : Mem) (im : Img) : List Nat :=
  (List.range im.height).flatMap fun (y : Nat) => (List.range im.width).map fun (x : Nat) =>
    (m (im.data + y * im.stride + 2 * x)).toNat + 256 * (m (im.data + y * im.stride + 2 * x + 1)).toNat

/-- red, green, blue of each pixel in a row -/
def rgbRow (m : Mem) (im : Img) (y : Nat) : List UInt8 := (List.range im.width).flatMap fun (x : Nat) => [m (byteAt im x y 2), m (byteAt im x y 1), m (byteAt im x y 0)]

/-- the file name has this extension; any combination of upper and lower case will do. There must be something before it -/
def HasExt (filename : List Char) (ext : String) : Prop := ∃ stem e, filename = stem ++ e ∧ stem ≠ [] ∧ e.map Char.toLower = ext.toList

/-! ### the header -/

theorem digits_decimal (n : Nat) : Decimal (digits n) n := by
  unfold digits
  have hd := printNat_digits n
  have key : ∀ c : Char, isDigit c = true → (c.toNat.toUInt8).toNat = c.toNat := by
    intro c hc
    unfold isDigit at hc
    simp only [Bool.and_eq_true, decide_eq_true_eq] at hc
    rw [Nat.toUInt8, UInt8.toNat_ofNat']
    omega
  refine ⟨?_, ?_, ?_⟩
  · intro h; exact printNat_ne_nil n (List.map_eq_nil_iff.1 h)
  · intro b hb
    rw [List.mem_map] at hb
    obtain ⟨c, hc, rfl⟩ := hb
    have h1 := key c (hd c hc)
    have h2 := hd c hc
    unfold isDigit at h2
    simp only [Bool.and_eq_true, decide_eq_true_eq] at h2
    rw [UInt8.le_iff_toNat_le, UInt8.le_iff_toNat_le, h1]
    exact h2
  · rw [List.foldl_map]
    conv_rhs => rw [← decVal_printNat n]
    unfold decVal
    generalize printNat n = l at hd
    have : ∀ (l : List Char) (v : Nat), (∀ c ∈ l, isDigit c = true) →
        l.foldl (fun v c => 10 * v + ((c.toNat.toUInt8).toNat - 48)) v = l.foldl (fun v c => v * 10 + digitVal c) v := by
      intro l
      induction l with
      | nil => intros; rfl
      | cons c l ih =>
        intro v hl
        rw [List.foldl_cons, List.foldl_cons, ih _ (fun x hx => hl x (List.mem_cons_of_mem _ hx)), key c (hl c List.mem_cons_self)]
        unfold digitVal
        rw [mul_comm]
    exact this l 0 hd

/-- a file that savePnm() makes -/
theorem savePnm_netpbm {m : Mem} {im : Img} {bits channels : Nat} (hb : (channels = 1 ∧ (bits = 8 ∨ bits = 16)) ∨ (channels = 3 ∧ bits = 24)) {samples : List Nat}
    (hl : samples.length = channels * im.width * im.height)
    (hs : if bits = 16 then BigEndian (readRows m im.data im.stride (im.width * (bits / 8)) im.height).flatten samples
      else (readRows m im.data im.stride (im.width * (bits / 8)) im.height).flatten.map UInt8.toNat = samples) :
    ∃ bytes, savePnm m im bits channels = some (.file bytes) ∧ Netpbm channels im.width im.height (if bits = 16 then 65535 else 255) samples bytes := by
  refine ⟨_, by unfold savePnm; rw [if_neg (not_not.2 hb)], ?_⟩
  refine ⟨ascii "\n", ascii " ", ascii "\n", digits im.width, digits im.height, digits (if bits = 16 then 65535 else 255), 10,
    (readRows m im.data im.stride (im.width * (bits / 8)) im.height).flatten, by decide, ?_, digits_decimal _, digits_decimal _, digits_decimal _, ?_, ?_, hl, ?_⟩
  · intro b hb
    have : b = 10 ∨ b = 32 := by
      revert hb; rw [show ascii "\n" ++ ascii " " ++ ascii "\n" = [10, 32, 10] by decide]; simp; tauto
    rcases this with rfl | rfl
    · right; decide
    · left; rfl
  · right; decide
  · have h1 : ascii "P" ++ digits (if channels = 1 then 5 else 6) = [80, if channels = 1 then 53 else 54] := by
      by_cases h : channels = 1
      · rw [if_pos h, if_pos h]; decide +kernel
      · rw [if_neg h, if_neg h]; decide +kernel
    rw [h1]
    simp only [List.append_assoc]
    rfl
  · by_cases h : bits = 16
    · rw [if_pos h] at hs
      rw [if_pos h, if_neg (by norm_num)]; exact hs
    · rw [if_neg h] at hs
      rw [if_neg h, if_pos (by norm_num)]; exact hs

/-! ### file names -/

theorem lower_eq (c : Char) : lower c = c.toLower := by
  unfold lower Char.toLower
  by_cases h : 65 ≤ c.toNat ∧ c.toNat ≤ 90
  · rw [if_pos h]
    have hA : c.val ≥ 'A'.val ∧ c.val ≤ 'Z'.val := by
      constructor
      · show 'A'.val ≤ c.val
        rw [UInt32.le_iff_toNat_le]; exact h.1
      · rw [UInt32.le_iff_toNat_le]; exact h.2
    rw [dif_pos hA]
    apply Char.ext
    apply UInt32.toNat_inj.1
    have h1 : (c.toNat + 32).isValidChar := Or.inl (by omega)
    rw [Char.ofNat, dif_pos h1]
    show (c.toNat + 32) = _
    have h2 : c.val.toNat = c.toNat := rfl
    rw [UInt32.toNat_add, h2]
    show _ = (c.toNat + 32) % 4294967296
    omega
  · rw [if_neg h, dif_neg]
    rintro ⟨h1, h2⟩
    apply h
    have h1' : 'A'.val ≤ c.val := h1
    rw [UInt32.le_iff_toNat_le] at h1' h2
    exact ⟨h1', h2⟩

theorem ext_iff (filename : List Char) (ext : String) (h4 : ext.toList.length = 4) (hl : ext.toList.map lower = ext.toList) :
    (∃ e, getExtension filename = some e ∧ sameNoCase e ext.toList = true) ↔ HasExt filename ext := by
  unfold getExtension sameNoCase HasExt
  have hm : ∀ l : List Char, l.map lower = l.map Char.toLower := fun l => List.map_congr_left (fun c _ => lower_eq c)
  constructor
  · rintro ⟨e, h1, h2⟩
    by_cases h : filename.length < 5
    · rw [if_pos h] at h1; simp at h1
    · rw [if_neg h] at h1
      have h1 := (Option.some.inj h1).symm
      refine ⟨filename.take (filename.length - 4), e, by rw [h1, List.take_append_drop], ?_, ?_⟩
      · intro hc
        have := congrArg List.length hc
        rw [List.length_take, List.length_nil] at this
        omega
      · rw [decide_eq_true_eq, hl, hm] at h2; exact h2
  · rintro ⟨stem, e, rfl, hne, he⟩
    have h1 : e.length = 4 := by rw [← h4, ← he, List.length_map]
    have h2 : 0 < stem.length := List.length_pos_iff.2 hne
    refine ⟨e, ?_, ?_⟩
    · rw [if_neg (by rw [List.length_append]; omega), List.length_append, h1, Nat.add_sub_cancel, List.drop_left]
    · rw [decide_eq_true_eq, hl, hm]; exact he

/-- extensions exclude each other -/
theorem ext_unique {filename : List Char} {a b : String} (ha : a.toList.length = 4) (hb : b.toList.length = 4) (h1 : HasExt filename a) (h2 : HasExt filename b) : a.toList = b.toList := by
  obtain ⟨s1, e1, h, -, k1⟩ := h1
  obtain ⟨s2, e2, h', -, k2⟩ := h2
  have l1 : e1.length = 4 := by rw [← ha, ← k1, List.length_map]
  have l2 : e2.length = 4 := by rw [← hb, ← k2, List.length_map]
  have : s1 ++ e1 = s2 ++ e2 := by rw [← h, ← h']
  have := (List.append_inj' this (by omega)).2
  rw [← k1, ← k2, this]

/-- the image that's passed to the encoder: color images are copied and converted to rgb -/
def prepared (m : Mem) (buf : Int) (im : Img) (bits : Nat) : Img × Mem :=
  if bits = 24 then ((denseCopy m im buf).1, bgrTofromRgb (denseCopy m im buf).1 (denseCopy m im buf).2) else (im, m)

theorem genericSave_eq (m : Mem) (buf : Int) (filename : List Char) (im : Img) (bits : Nat) (hw : 0 < im.width) (hh : 0 < im.height) (hb : bits = 8 ∨ bits = 16 ∨ bits = 24) :
    (HasExt filename ".png" → genericSave m buf filename im bits = savePng (prepared m buf im bits).2 (prepared m buf im bits).1 bits) ∧
    (HasExt filename ".jpg" → genericSave m buf filename im bits = saveJpg (prepared m buf im bits).2 (prepared m buf im bits).1 bits (if bits = 24 then 3 else 1)) ∧
    (HasExt filename ".pgm" → genericSave m buf filename im bits = savePgm (prepared m buf im bits).2 (prepared m buf im bits).1 bits (if bits = 24 then 3 else 1)) ∧
    (HasExt filename ".ppm" → genericSave m buf filename im bits = savePpm (prepared m buf im bits).2 (prepared m buf im bits).1 bits (if bits = 24 then 3 else 1)) ∧
    (¬ HasExt filename ".png" → ¬ HasExt filename ".jpg" → ¬ HasExt filename ".pgm" → ¬ HasExt filename ".ppm" → genericSave m buf filename im bits = none) := by
  have hch : (if bits = 8 ∨ bits = 16 then some 1 else if bits = 24 then some 3 else none) = some (if bits = 24 then 3 else 1) := by
    rcases hb with rfl | rfl | rfl <;> rfl
  have hprep : (if bits = 24 then ((denseCopy m im buf).1, bgrTofromRgb (denseCopy m im buf).1 (denseCopy m im buf).2) else (im, m)) = prepared m buf im bits := rfl
  have hgs : genericSave m buf filename im bits = match getExtension filename with
      | none => none
      | some ext =>
        if sameNoCase ext ".png".toList then savePng (prepared m buf im bits).2 (prepared m buf im bits).1 bits
        else if sameNoCase ext ".jpg".toList then saveJpg (prepared m buf im bits).2 (prepared m buf im bits).1 bits (if bits = 24 then 3 else 1)
        else if sameNoCase ext ".pgm".toList then savePgm (prepared m buf im bits).2 (prepared m buf im bits).1 bits (if bits = 24 then 3 else 1)
        else if sameNoCase ext ".ppm".toList then savePpm (prepared m buf im bits).2 (prepared m buf im bits).1 bits (if bits = 24 then 3 else 1)
        else none := by
    unfold genericSave
    rw [if_neg (by omega)]
    simp only [hch]
    rcases hb with rfl | rfl | rfl <;> rfl
  rw [hgs]
  have i1 := ext_iff filename ".png" (by decide) (by decide)
  have i2 := ext_iff filename ".jpg" (by decide) (by decide)
  have i3 := ext_iff filename ".pgm" (by decide) (by decide)
  have i4 := ext_iff filename ".ppm" (by decide) (by decide)
  have u : ∀ a b : String, a.toList.length = 4 → b.toList.length = 4 → a.toList ≠ b.toList → HasExt filename a → ¬ HasExt filename b := by
    intro a b ha hb hne h1 h2; exact hne (ext_unique ha hb h1 h2)
  cases hg : getExtension filename with
  | none =>
    rw [hg] at i1 i2 i3 i4
    simp only [reduceCtorEq, false_and, exists_false, false_iff] at i1 i2 i3 i4
    exact ⟨fun h => absurd h i1, fun h => absurd h i2, fun h => absurd h i3, fun h => absurd h i4, fun _ _ _ _ => rfl⟩
  | some e =>
    rw [hg] at i1 i2 i3 i4
    simp only [Option.some.injEq, exists_eq_left'] at i1 i2 i3 i4
    dsimp only
    refine ⟨fun h => ?_, fun h => ?_, fun h => ?_, fun h => ?_, fun h1 h2 h3 h4 => ?_⟩
    · rw [if_pos (i1.2 h)]
    · rw [if_neg (fun hc => u ".jpg" ".png" (by decide) (by decide) (by decide) h (i1.1 hc)), if_pos (i2.2 h)]
    · rw [if_neg (fun hc => u ".pgm" ".png" (by decide) (by decide) (by decide) h (i1.1 hc)), if_neg (fun hc => u ".pgm" ".jpg" (by decide) (by decide) (by decide) h (i2.1 hc)), if_pos (i3.2 h)]
    · rw [if_neg (fun hc => u ".ppm" ".png" (by decide) (by decide) (by decide) h (i1.1 hc)), if_neg (fun hc => u ".ppm" ".jpg" (by decide) (by decide) (by decide) h (i2.1 hc)),
        if_neg (fun hc => u ".ppm" ".pgm" (by decide) (by decide) (by decide) h (i3.1 hc)), if_pos (i4.2 h)]
    · rw [if_neg (fun hc => h1 (i1.1 hc)), if_neg (fun hc => h2 (i2.1 hc)), if_neg (fun hc => h3 (i3.1 hc)), if_neg (fun hc => h4 (i4.1 hc))]

/-- **C71**: which images can be saved to which files. The extension decides, whatever its case: .png takes everything, .jpg everything but 16-bit images, .pgm gray images, .ppm color
images. Empty images and other names are rejected -/
theorem save_accepts (m : Mem) (buf : Int) (filename : List Char) (im : Img) (bits : Nat) (hb : bits = 8 ∨ bits = 16 ∨ bits = 24) :
    (genericSave m buf filename im bits).isSome ↔ 0 < im.width ∧ 0 < im.height ∧
      (HasExt filename ".png" ∨ (HasExt filename ".jpg" ∧ bits ≠ 16) ∨ (HasExt filename ".pgm" ∧ bits ≠ 24) ∨ (HasExt filename ".ppm" ∧ bits = 24)) := by
  by_cases hsz : 0 < im.width ∧ 0 < im.height
  · obtain ⟨g1, g2, g3, g4, g5⟩ := genericSave_eq m buf filename im bits hsz.1 hsz.2 hb
    have u : ∀ a b : String, a.toList.length = 4 → b.toList.length = 4 → a.toList ≠ b.toList → HasExt filename a → ¬ HasExt filename b := by
      intro a b ha hb hne h1 h2; exact hne (ext_unique ha hb h1 h2)
    by_cases h1 : HasExt filename ".png"
    · rw [g1 h1]
      exact ⟨fun _ => ⟨hsz.1, hsz.2, Or.inl h1⟩, fun _ => rfl⟩
    by_cases h2 : HasExt filename ".jpg"
    · rw [g2 h2]
      have n3 := u ".jpg" ".pgm" (by decide) (by decide) (by decide) h2
      have n4 := u ".jpg" ".ppm" (by decide) (by decide) (by decide) h2
      unfold saveJpg
      by_cases h16 : bits = 16
      · rw [if_pos h16]; simp [h1, n3, n4, h16]
      · rw [if_neg h16]; simp [h2, h16, hsz.1, hsz.2]
    by_cases h3 : HasExt filename ".pgm"
    · rw [g3 h3]
      have n4 := u ".pgm" ".ppm" (by decide) (by decide) (by decide) h3
      unfold savePgm savePnm
      rcases hb with rfl | rfl | rfl <;> simp [h1, h2, h3, n4, hsz.1, hsz.2]
    by_cases h4 : HasExt filename ".ppm"
    · rw [g4 h4]
      unfold savePpm savePnm
      rcases hb with rfl | rfl | rfl <;> simp [h1, h2, h3, h4, hsz.1, hsz.2]
    · rw [g5 h1 h2 h3 h4]; simp [h1, h2, h3, h4]
  · have : genericSave m buf filename im bits = none := by
      unfold genericSave
      rw [if_pos (by omega)]
    rw [this]
    constructor
    · intro h; simp at h
    · rintro ⟨h1, h2, -⟩; exact absurd ⟨h1, h2⟩ hsz

example : HasExt "a.PnG".toList ".png" ∧ ¬ HasExt ".png".toList ".png" := by
  refine ⟨⟨['a'], ".PnG".toList, by decide, by decide, by decide⟩, ?_⟩
  rintro ⟨stem, e, h, hne, he⟩
  have h1 := congrArg List.length he
  rw [List.length_map] at h1
  have h2 := congrArg List.length h
  rw [List.length_append, h1] at h2
  have h3 : ".png".toList.length = 4 := by decide
  rw [h3] at h2
  have := List.length_pos_iff.2 hne
  omega

/-! ### gray images -/

theorem rows_flatten (m : Mem) (data stride : Int) (n h : Nat) :
    (readRows m data stride n h).flatten = (List.range h).flatMap fun (y : Nat) => (List.range n).map fun (k : Nat) => m (data + y * stride + k) := by
  unfold readRows readBytes
  rw [List.flatMap_def]

/-- **C71**: an 8-bit image is saved to a .pgm file exactly -/
theorem save_gray (m : Mem) (buf : Int) (filename : List Char) (im : Img) (hw : 0 < im.width) (hh : 0 < im.height) (he : HasExt filename ".pgm") :
    ∃ bytes, genericSave m buf filename im 8 = some (.file bytes) ∧ Netpbm 1 im.width im.height 255 (graySamples m im) bytes := by
  rw [(genericSave_eq m buf filename im 8 hw hh (Or.inl rfl)).2.2.1 he]
  have hlen : (graySamples m im).length = 1 * im.width * im.height := by
    unfold graySamples
    simp [List.length_flatMap, mul_comm]
  obtain ⟨bytes, h1, h2⟩ := savePnm_netpbm (m := m) (im := im) (bits := 8) (channels := 1) (Or.inl ⟨rfl, Or.inl rfl⟩) hlen (by
    rw [if_neg (by norm_num), rows_flatten]
    unfold graySamples
    rw [List.map_flatMap]
    simp only [List.map_map, Nat.mul_one, show 8 / 8 = 1 from rfl]
    rfl)
  refine ⟨bytes, ?_, h2⟩
  unfold savePgm prepared
  rw [if_neg (by norm_num)]
  exact h1

theorem flatMap_pairs {β : Type} (g : Nat → β) (w : Nat) : (List.range (w * 2)).map g = (List.range w).flatMap fun x => [g (2 * x), g (2 * x + 1)] := by
  induction w with
  | zero => rfl
  | succ w ih =>
    rw [Nat.succ_mul, List.range_succ, List.range_succ, List.range_succ, List.flatMap_append]
    simp only [List.map_append, List.append_assoc, ih, List.map_cons, List.map_nil, List.flatMap_cons, List.flatMap_nil, List.append_nil]
    rw [mul_comm w 2]; rfl

theorem bigEndian_append {a b : List UInt8} {s t : List Nat} (h1 : BigEndian a s) (h2 : BigEndian b t) : BigEndian (a ++ b) (s ++ t) := by
  induction h1 with
  | nil => exact h2
  | cons h ih => exact .cons ih

/-- **C71**: a 16-bit image that's saved to a .pgm file has its bytes exchanged (on a little-endian machine): the file should have the most significant byte first, but has it last -/
theorem save_gray16_partial (m : Mem) (buf : Int) (filename : List Char) (im : Img) (hw : 0 < im.width) (hh : 0 < im.height) (he : HasExt filename ".pgm") :
    ∃ bytes, genericSave m buf filename im 16 = some (.file bytes) ∧
      Netpbm 1 im.width im.height 65535 ((gray16Samples m im).map fun v => 256 * (v % 256) + v / 256) bytes := by
  rw [(genericSave_eq m buf filename im 16 hw hh (Or.inr (Or.inl rfl))).2.2.1 he]
  have hlen : ((gray16Samples m im).map fun v => 256 * (v % 256) + v / 256).length = 1 * im.width * im.height := by
    unfold gray16Samples
    simp [List.length_flatMap, mul_comm]
  obtain ⟨bytes, h1, h2⟩ := savePnm_netpbm (m := m) (im := im) (bits := 16) (channels := 1) (Or.inl ⟨rfl, Or.inr rfl⟩) hlen (by
    rw [if_pos rfl, rows_flatten]
    unfold gray16Samples
    rw [List.map_flatMap, show 16 / 8 = 2 from rfl]
    generalize List.range im.height = rows
    induction rows with
    | nil => exact .nil
    | cons y rows ih =>
      rw [List.flatMap_cons, List.flatMap_cons]
      refine bigEndian_append ?_ ih
      rw [flatMap_pairs, List.map_map]
      generalize List.range im.width = cols
      induction cols with
      | nil => exact .nil
      | cons x cols ih =>
        rw [List.flatMap_cons, List.map_cons]
        have hv : 256 * (m (im.data + y * im.stride + ((2 * x : Nat) : Int))).toNat + (m (im.data + y * im.stride + ((2 * x + 1 : Nat) : Int))).toNat =
            ((fun v => 256 * (v % 256) + v / 256) ∘ fun (x : Nat) => (m (im.data + y * im.stride + 2 * x)).toNat + 256 * (m (im.data + y * im.stride + 2 * x + 1)).toNat) x := by
          simp only [Function.comp]
          have hlo := UInt8.toNat_lt (m (im.data + y * im.stride + 2 * x))
          push_cast
          rw [show im.data + y * im.stride + (2 * (x : Int) + 1) = im.data + y * im.stride + 2 * x + 1 by ring]
          generalize (m (im.data + y * im.stride + 2 * x)).toNat = a at *
          generalize (m (im.data + y * im.stride + 2 * x + 1)).toNat = b at *
          omega
        rw [← hv]
        exact .cons ih)
  refine ⟨bytes, ?_, h2⟩
  unfold savePgm prepared
  rw [if_neg (by norm_num)]
  exact h1

/-- **C71**, a deviation: so an image with one pixel of value 1 is a file with the value 256 -/
theorem save_gray16_wrong : ∃ (m : Mem) (bytes : List UInt8), gray16Samples m ⟨1, 1, 2, 0⟩ = [1] ∧ genericSave m 1000 "a.pgm".toList ⟨1, 1, 2, 0⟩ 16 = some (.file bytes) ∧
    Netpbm 1 1 1 65535 [256] bytes := by
  refine ⟨fun a => if a = 0 then 1 else 0, ?_⟩
  obtain ⟨bytes, h1, h2⟩ := save_gray16_partial (fun a => if a = 0 then 1 else 0) 1000 "a.pgm".toList ⟨1, 1, 2, 0⟩ (by decide) (by decide)
    ⟨['a'], ".pgm".toList, by decide, by decide, by decide⟩
  exact ⟨bytes, by decide, h1, h2⟩

/-! ### color images -/

/-- the new buffer doesn't overlap the image -/
def Separate (im : Img) (buf : Int) : Prop := ∀ y k : Nat, y < im.height → k < im.width * 3 → ¬ (buf ≤ im.data + y * im.stride + k ∧ im.data + y * im.stride + k < buf + im.width * im.height * 3)

theorem copy_rows (im : Img) (buf : Int) (hsep : Separate im buf) (m : Mem) (n : Nat) (hn : n ≤ im.height) :
    (∀ i k : Nat, i < n → k < im.width * 3 → ((List.range n).foldl (fun m (i : Nat) => fun a => if buf + i * (im.width * 3 : Int) ≤ a ∧ a < buf + i * (im.width * 3 : Int) + ((im.width * 3 : Nat) : Int) then
        m (im.data + i * im.stride + (a - (buf + i * (im.width * 3 : Int)))) else m a) m) (buf + i * (im.width * 3 : Int) + k) = m (im.data + i * im.stride + k)) ∧
    (∀ a, ¬ (buf ≤ a ∧ a < buf + n * (im.width * 3 : Int)) → ((List.range n).foldl (fun m (i : Nat) => fun a => if buf + i * (im.width * 3 : Int) ≤ a ∧ a < buf + i * (im.width * 3 : Int) + ((im.width * 3 : Nat) : Int) then
        m (im.data + i * im.stride + (a - (buf + i * (im.width * 3 : Int)))) else m a) m) a = m a) := by
  induction n with
  | zero =>
    refine ⟨fun i k hi => absurd hi (by omega), fun a _ => rfl⟩
  | succ n ih =>
    obtain ⟨h1, h2⟩ := ih (by omega)
    rw [List.range_succ, List.foldl_append, List.foldl_cons, List.foldl_nil]
    generalize (List.range n).foldl (fun m (i : Nat) => fun a => if buf + i * (im.width * 3 : Int) ≤ a ∧ a < buf + i * (im.width * 3 : Int) + ((im.width * 3 : Nat) : Int) then
        m (im.data + i * im.stride + (a - (buf + i * (im.width * 3 : Int)))) else m a) m = m' at *
    have hS : (0 : Int) ≤ im.width * 3 := by omega
    constructor
    · intro i k hi hk
      by_cases hin : i = n
      · subst hin
        rw [if_pos ⟨by omega, by push_cast; omega⟩, show im.data + i * im.stride + (buf + i * (im.width * 3 : Int) + k - (buf + i * (im.width * 3 : Int))) = im.data + i * im.stride + k by ring]
        apply h2
        rintro ⟨g1, g2⟩
        apply hsep i k (by omega) hk
        refine ⟨g1, lt_of_lt_of_le g2 ?_⟩
        have : (i : Int) * (im.width * 3) ≤ im.height * (im.width * 3) := mul_le_mul_of_nonneg_right (by omega) hS
        have e : (im.height : Int) * (im.width * 3) = im.width * im.height * 3 := by ring
        omega
      · have hlt : i < n := by omega
        have : ((i : Int) + 1) * (im.width * 3) ≤ n * (im.width * 3) := mul_le_mul_of_nonneg_right (by omega) hS
        have e : ((i : Int) + 1) * (im.width * 3) = i * (im.width * 3) + im.width * 3 := by ring
        rw [if_neg (by omega), h1 i k hlt hk]
    · intro a ha
      have e : ((n + 1 : Nat) : Int) * (im.width * 3) = n * (im.width * 3) + im.width * 3 := by push_cast; ring
      rw [e] at ha
      have h0 : 0 ≤ (n : Int) * (im.width * 3) := mul_nonneg (by omega) hS
      rw [if_neg (by push_cast; omega), h2 a (by omega)]

theorem dense_rows (im : Img) (buf : Int) (hsep : Separate im buf) (m : Mem) : (denseCopy m im buf).1 = ⟨im.width, im.height, im.width * 3, buf⟩ ∧
    ∀ i k : Nat, i < im.height → k < im.width * 3 → (denseCopy m im buf).2 (buf + i * (im.width * 3 : Int) + k) = m (im.data + i * im.stride + k) := by
  unfold denseCopy
  dsimp only
  by_cases hs : (im.width * 3 : Int) = im.stride
  · rw [if_pos hs]
    refine ⟨rfl, fun i k hi hk => ?_⟩
    dsimp only
    have h1 : ((i : Int) + 1) * (im.width * 3) ≤ im.height * (im.width * 3) := mul_le_mul_of_nonneg_right (by omega) (by omega)
    have e1 : ((i : Int) + 1) * (im.width * 3) = i * (im.width * 3) + im.width * 3 := by ring
    have e2 : (im.height : Int) * (im.width * 3) = im.width * im.height * 3 := by ring
    have h0 : 0 ≤ (i : Int) * (im.width * 3) := mul_nonneg (by omega) (by omega)
    rw [if_pos ⟨by omega, by push_cast; omega⟩]
    congr 1
    rw [← hs]; ring
  · rw [if_neg hs]
    exact ⟨rfl, fun i k hi hk => (copy_rows im buf hsep m im.height le_rfl).1 i k hi hk⟩

theorem flatMap_triples {β : Type} (g : Nat → β) (w : Nat) : (List.range (w * 3)).map g = (List.range w).flatMap fun x => [g (3 * x), g (3 * x + 1), g (3 * x + 2)] := by
  induction w with
  | zero => rfl
  | succ w ih =>
    rw [Nat.succ_mul, List.range_succ, List.range_succ, List.range_succ, List.range_succ, List.flatMap_append]
    simp only [List.map_append, List.append_assoc, ih, List.map_cons, List.map_nil, List.flatMap_cons, List.flatMap_nil, List.append_nil]
    rw [mul_comm w 3]; rfl

theorem prepared_rows (m : Mem) (buf : Int) (im : Img) (hsep : Separate im buf) (hsize : (im.height : Int) * (im.width * 3) < 2 ^ 62) :
    (prepared m buf im 24).1 = ⟨im.width, im.height, im.width * 3, buf⟩ ∧
    readRows (prepared m buf im 24).2 buf (im.width * 3) (im.width * 3) im.height = (List.range im.height).map (rgbRow m im) := by
  obtain ⟨d1, d2⟩ := dense_rows im buf hsep m
  unfold prepared
  rw [if_pos rfl]
  refine ⟨d1, ?_⟩
  dsimp only
  rw [d1]
  have hci : ColorImage ⟨im.width, im.height, im.width * 3, buf⟩ := ⟨⟨im.width, by dsimp only; ring⟩, by dsimp only; omega, hsize⟩
  obtain ⟨b1, -⟩ := bgr_rgb _ hci (denseCopy m im buf).2
  unfold readRows
  apply List.map_congr_left
  intro y hy
  have hy' := List.mem_range.1 hy
  unfold readBytes rgbRow
  rw [flatMap_triples]
  have hc : ∀ x ∈ List.range im.width, ∀ c : Nat, c < 3 →
      bgrTofromRgb ⟨im.width, im.height, im.width * 3, buf⟩ (denseCopy m im buf).2 (buf + y * (im.width * 3 : Int) + ((3 * x + c : Nat) : Int)) = m (byteAt im x y (2 - c)) := by
    intro x hx c hc
    have hx' := List.mem_range.1 hx
    have := b1 x y c hx' hy' hc
    have e : byteAt ⟨im.width, im.height, im.width * 3, buf⟩ x y c = buf + y * (im.width * 3 : Int) + ((3 * x + c : Nat) : Int) := by unfold byteAt; push_cast; ring
    rw [e] at this
    rw [this]
    have e2 : byteAt ⟨im.width, im.height, im.width * 3, buf⟩ x y (2 - c) = buf + y * (im.width * 3 : Int) + ((3 * x + (2 - c) : Nat) : Int) := by unfold byteAt; push_cast; ring
    rw [e2, d2 y _ hy' (by omega)]
    unfold byteAt
    congr 1
    push_cast; ring
  apply List.flatMap_congr
  intro x hx
  rw [show 3 * x = 3 * x + 0 from rfl, hc x hx 0 (by norm_num), hc x hx 1 (by norm_num), hc x hx 2 (by norm_num)]

/-- **C71**: color images are stored as red, green, blue: this is the data passed to libpng and libjpeg, with the right dimensions; and this is in a .ppm file -/
theorem save_color (m : Mem) (buf : Int) (filename : List Char) (im : Img) (hw : 0 < im.width) (hh : 0 < im.height) (hsep : Separate im buf) (hsize : (im.height : Int) * (im.width * 3) < 2 ^ 62) :
    (HasExt filename ".png" → genericSave m buf filename im 24 = some (.png 24 im.width im.height ((List.range im.height).map (rgbRow m im)))) ∧
    (HasExt filename ".jpg" → genericSave m buf filename im 24 = some (.jpg 3 im.width im.height ((List.range im.height).map (rgbRow m im)))) ∧
    (HasExt filename ".ppm" → ∃ bytes, genericSave m buf filename im 24 = some (.file bytes) ∧
      Netpbm 3 im.width im.height 255 (((List.range im.height).flatMap (rgbRow m im)).map UInt8.toNat) bytes) := by
  obtain ⟨g1, g2, -, g4, -⟩ := genericSave_eq m buf filename im 24 hw hh (Or.inr (Or.inr rfl))
  obtain ⟨p1, p2⟩ := prepared_rows m buf im hsep hsize
  refine ⟨fun h => ?_, fun h => ?_, fun h => ?_⟩
  · rw [g1 h]
    unfold savePng
    rw [p1]
    simp only [show ¬ (24 = 16) by norm_num, if_false, show 24 / 8 = 3 from rfl]
    rw [p2]
  · rw [g2 h]
    unfold saveJpg
    rw [p1, if_neg (by norm_num)]
    simp only [if_true]
    rw [p2]
  · rw [g4 h]
    unfold savePpm
    rw [if_neg (by norm_num)]
    have hlen : (((List.range im.height).flatMap (rgbRow m im)).map UInt8.toNat).length = 3 * (prepared m buf im 24).1.width * (prepared m buf im 24).1.height := by
      rw [p1]
      unfold rgbRow
      simp [List.length_flatMap]
      ring
    obtain ⟨bytes, h1, h2⟩ := savePnm_netpbm (m := (prepared m buf im 24).2) (im := (prepared m buf im 24).1) (bits := 24) (channels := 3) (Or.inr ⟨rfl, rfl⟩) hlen (by
      rw [if_neg (by norm_num), p1]
      dsimp only
      rw [show 24 / 8 = 3 from rfl, p2, List.flatMap_def])
    rw [p1] at h2
    exact ⟨bytes, h1, h2⟩

/-- an image with gaps between its rows, and a stride that isn't a multiple of 3 -/
example : Separate ⟨2, 2, 10, 0⟩ 1000 := by
  intro y k hy hk
  have h1 : y < 2 := hy
  have h2 : k < 6 := hk
  have : y * 10 < 20 := by omega
  show ¬ ((1000 : Int) ≤ 0 + y * 10 + k ∧ _)
  omega

end Mrcal.ImageIO
