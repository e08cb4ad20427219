import Verif.Props.ImageSaveProps
import Mathlib.Data.List.GetD
import Mathlib.Tactic.FieldSimp
import Mathlib.Tactic.Positivity
import Mathlib.Algebra.Order.Ring.Abs
/-
C72: loading images, and saving followed by loading. C73: the stretch equalization
-/
namespace Mrcal.ImageIO

/-! ### which images can be loaded -/

/-- the documentation in image.h: which files can be loaded as which type. Files with 8 bits per channel are gray, color or color with alpha; files with 16 bits per channel are gray.
8-bit gray images (8) and images of any type (0) can be loaded from any of those; 16-bit images (16) are never converted; color images (24) are made from gray and from color -/
def Loadable (requested channels : Nat) (is16 : Bool) : Prop :=
  match requested with
  | 16 => is16 = true ∧ channels = 1
  | 24 => is16 = false ∧ (channels = 1 ∨ channels = 3 ∨ channels = 4)
  | _ => (is16 = true ∧ channels = 1) ∨ (is16 = false ∧ (channels = 1 ∨ channels = 3 ∨ channels = 4))

theorem plan_iff (requested channels : Nat) (is16 : Bool) (hr : requested = 0 ∨ requested = 8 ∨ requested = 16 ∨ requested = 24) :
    (loadPlan (some (channels, is16)) requested).isSome ↔ Loadable requested channels is16 := by
  by_cases h1 : channels = 1
  · subst h1
    rcases hr with rfl | rfl | rfl | rfl <;> cases is16 <;> simp [loadPlan, Loadable]
  by_cases h3 : channels = 3
  · subst h3
    rcases hr with rfl | rfl | rfl | rfl <;> cases is16 <;> simp [loadPlan, Loadable]
  by_cases h4 : channels = 4
  · subst h4
    rcases hr with rfl | rfl | rfl | rfl <;> cases is16 <;> simp [loadPlan, Loadable]
  rcases hr with rfl | rfl | rfl | rfl <;> cases is16 <;> simp [loadPlan, Loadable, h1, h3, h4]

/-- **C72**: if the decoder can read the data, loading succeeds for exactly those files that can be loaded as the requested type -/
theorem load_accepts (dec : Decoder) (m : Mem) (buf : Int) (requested : Nat) (hr : requested = 0 ∨ requested = 8 ∨ requested = 16 ∨ requested = 24)
    (h8 : ∀ n, (dec.load8 n).isSome) (h16 : dec.load16.isSome) :
    genericLoad dec requested m buf ≠ .failed ↔ ∃ channels is16, dec.info = some (channels, is16) ∧ Loadable requested channels is16 := by
  obtain ⟨⟨w16, h16', v16⟩, e16⟩ := Option.isSome_iff_exists.1 h16
  unfold genericLoad
  cases hi : dec.info with
  | none => simp [loadPlan]
  | some ci =>
    obtain ⟨channels, is16⟩ := ci
    have hp := plan_iff requested channels is16 hr
    have : (∃ c i, some (channels, is16) = some (c, i) ∧ Loadable requested c i) ↔ Loadable requested channels is16 := by
      constructor
      · rintro ⟨c, i, h, hl⟩
        cases h; exact hl
      · intro h; exact ⟨_, _, rfl, h⟩
    rw [this, ← hp]
    cases hpl : loadPlan (some (channels, is16)) requested with
    | none => simp
    | some bp =>
      obtain ⟨bits, plan⟩ := bp
      cases plan with
      | load8 n =>
        obtain ⟨⟨w, h, b⟩, e⟩ := Option.isSome_iff_exists.1 (h8 n)
        simp [e]
      | load16 => simp [e16]
      | load16Stretch =>
        simp only [e16]
        cases (stretch v16).mapM id <;> simp

/-! ### what is loaded -/

theorem put_at (m : Mem) (buf : Int) (bytes : List UInt8) (k : Nat) (hk : k < bytes.length) : putBytes m buf bytes (buf + k) = bytes.getD k 0 := by
  unfold putBytes
  rw [if_pos ⟨by omega, by omega⟩]
  congr 1
  omega

theorem index_lt {x y w h n c : Nat} (hx : x < w) (hy : y < h) (hc : c < n) : y * (w * n) + n * x + c < w * n * h := by
  have h1 : (y + 1) * (w * n) ≤ h * (w * n) := Nat.mul_le_mul_right _ hy
  have h2 : (x + 1) * n ≤ w * n := Nat.mul_le_mul_right _ hx
  have e1 : (y + 1) * (w * n) = y * (w * n) + w * n := by ring
  have e2 : (x + 1) * n = n * x + n := by ring
  have e3 : w * n * h = h * (w * n) := by ring
  omega

/-- **C72**: gray images: whether asked for explicitly, or as images of any type if the file is like that. The image has the size of the file, has no gaps, and has its bytes -/
theorem load_gray (dec : Decoder) (m : Mem) (buf : Int) (requested channels w h : Nat) (bytes : List UInt8) (hi : dec.info = some (channels, false))
    (hr : (requested = 8 ∧ (channels = 1 ∨ channels = 3 ∨ channels = 4)) ∨ (requested = 0 ∧ channels = 1)) (hd : dec.load8 1 = some (w, h, bytes)) (hl : bytes.length = w * h) :
    ∃ m', genericLoad dec requested m buf = .image 8 ⟨w, h, w, buf⟩ m' ∧ ∀ x y, x < w → y < h → m' (buf + y * w + x) = bytes.getD (y * w + x) 0 := by
  have hp : loadPlan dec.info requested = some (8, .load8 1) := by
    rw [hi]
    rcases hr with ⟨rfl, rfl | rfl | rfl⟩ | ⟨rfl, rfl⟩ <;> rfl
  refine ⟨putBytes m buf bytes, ?_, ?_⟩
  · unfold genericLoad
    rw [hp]
    simp [hd]
  · intro x y hx hy
    have := index_lt (n := 1) (c := 0) hx hy (by norm_num)
    rw [← put_at m buf bytes (y * w + x) (by rw [hl]; simpa using this)]
    push_cast
    congr 1; ring

/-- values of 16 bits in memory -/
inductive LittleEndian : List UInt8 → List Nat → Prop
  | nil : LittleEndian [] []
  | cons {lo hi : UInt8} {r : List UInt8} {s : List Nat} (h : LittleEndian r s) : LittleEndian (lo :: hi :: r) ((lo.toNat + 256 * hi.toNat) :: s)

theorem little_bytes {r : List UInt8} {s : List Nat} (h : LittleEndian r s) : (s.flatMap fun v => [(v % 256).toUInt8, (v / 256).toUInt8]) = r := by
  induction h with
  | nil => rfl
  | @cons lo hi r s h ih =>
    rw [List.flatMap_cons, ih]
    have h1 := UInt8.toNat_lt lo
    have h2 := UInt8.toNat_lt hi
    have e1 : (lo.toNat + 256 * hi.toNat) % 256 = lo.toNat := by omega
    have e2 : (lo.toNat + 256 * hi.toNat) / 256 = hi.toNat := by omega
    rw [e1, e2, show lo.toNat.toUInt8 = lo from UInt8.ofNat_toNat, show hi.toNat.toUInt8 = hi from UInt8.ofNat_toNat]
    rfl

/-- **C72**: 16-bit images are loaded without any conversion -/
theorem load_gray16 (dec : Decoder) (m : Mem) (buf : Int) (requested w h : Nat) (values : List Nat) (bytes : List UInt8) (hi : dec.info = some (1, true))
    (hr : requested = 16 ∨ requested = 0) (hd : dec.load16 = some (w, h, values)) (hv : LittleEndian bytes values) (hl : values.length = w * h) :
    ∃ m', genericLoad dec requested m buf = .image 16 ⟨w, h, w * 2, buf⟩ m' ∧ ∀ x y c : Nat, x < w → y < h → c < 2 → m' (buf + y * (w * 2) + 2 * x + c) = bytes.getD (y * (w * 2) + 2 * x + c) 0 := by
  have hp : loadPlan dec.info requested = some (16, .load16) := by
    rw [hi]
    rcases hr with rfl | rfl <;> rfl
  have hb := little_bytes hv
  have hlen : bytes.length = w * 2 * h := by
    rw [← hb]
    simp [List.length_flatMap, hl]
    ring
  refine ⟨putBytes m buf bytes, ?_, ?_⟩
  · unfold genericLoad
    rw [hp]
    simp only [hd, hb]
    congr 2
    rw [show w * 16 / 8 = w * 2 by omega]
    push_cast; rfl
  · intro x y c hx hy hc
    rw [← put_at m buf bytes _ (by rw [hlen]; exact index_lt hx hy hc)]
    push_cast
    congr 1; ring

/-- **C72**: color images: the decoder gives red, green, blue for each pixel; the image has blue, green, red -/
theorem load_color (dec : Decoder) (m : Mem) (buf : Int) (requested channels w h : Nat) (bytes : List UInt8) (hi : dec.info = some (channels, false))
    (hr : (requested = 24 ∧ (channels = 1 ∨ channels = 3 ∨ channels = 4)) ∨ (requested = 0 ∧ (channels = 3 ∨ channels = 4))) (hd : dec.load8 3 = some (w, h, bytes))
    (hl : bytes.length = w * 3 * h) (hsize : (h : Int) * (w * 3) < 2 ^ 62) :
    ∃ m', genericLoad dec requested m buf = .image 24 ⟨w, h, w * 3, buf⟩ m' ∧ ∀ x y c : Nat, x < w → y < h → c < 3 → m' (buf + y * (w * 3) + 3 * x + c) = bytes.getD (y * (w * 3) + 3 * x + (2 - c)) 0 := by
  have hp : loadPlan dec.info requested = some (24, .load8 3) := by
    rw [hi]
    rcases hr with ⟨rfl, rfl | rfl | rfl⟩ | ⟨rfl, rfl | rfl⟩ <;> rfl
  refine ⟨bgrTofromRgb ⟨w, h, w * 3, buf⟩ (putBytes m buf bytes), ?_, ?_⟩
  · unfold genericLoad
    rw [hp]
    simp only [hd, if_true]
    rw [show ((w * 24 / 8 : Nat) : Int) = w * 3 by rw [show w * 24 / 8 = w * 3 by omega]; push_cast; rfl]
  · intro x y c hx hy hc
    have hci : ColorImage ⟨w, h, w * 3, buf⟩ := ⟨⟨w, by dsimp only; ring⟩, by dsimp only; omega, hsize⟩
    have := (bgr_rgb _ hci (putBytes m buf bytes)).1 x y c hx hy hc
    unfold byteAt at this
    dsimp only at this
    rw [this, ← put_at m buf bytes _ (by rw [hl]; exact index_lt hx hy (by omega))]
    push_cast
    congr 1; ring

/-! ### saving and loading -/

theorem flatten_at (f : Nat → List UInt8) (n : Nat) (hf : ∀ y, (f y).length = n) (h : Nat) :
    ((List.range h).map f).flatten.length = h * n ∧ ∀ y k, y < h → k < n → ((List.range h).map f).flatten.getD (y * n + k) 0 = (f y).getD k 0 := by
  induction h with
  | zero => exact ⟨by simp, fun y k hy => absurd hy (by omega)⟩
  | succ h ih =>
    rw [List.range_succ, List.map_append, List.flatten_append]
    simp only [List.map_cons, List.map_nil, List.flatten_cons, List.flatten_nil, List.append_nil]
    constructor
    · rw [List.length_append, ih.1, hf]; ring
    · intro y k hy hk
      by_cases hyh : y = h
      · subst hyh
        rw [List.getD_append_right _ _ _ _ (by rw [ih.1]; omega), ih.1, Nat.add_sub_cancel_left]
      · have h1 : (y + 1) * n ≤ h * n := Nat.mul_le_mul_right _ (by omega)
        have e1 : (y + 1) * n = y * n + n := by ring
        rw [List.getD_append _ _ _ _ (by rw [ih.1]; omega), ih.2 y k (by omega) hk]

/-- the contract of the .png library: decoding gives what was encoded -/
def PngDecodes (dec : Decoder) (stored : Stored) : Prop :=
  match stored with
  | .png 8 w h rows => dec.info = some (1, false) ∧ dec.load8 1 = some (w, h, rows.flatten)
  | .png 16 w h rows => dec.info = some (1, true) ∧ ∃ values, dec.load16 = some (w, h, values) ∧ LittleEndian rows.flatten values
  | .png 24 w h rows => dec.info = some (3, false) ∧ dec.load8 3 = some (w, h, rows.flatten)
  | _ => False

theorem little_length {r : List UInt8} {s : List Nat} (h : LittleEndian r s) : r.length = 2 * s.length := by
  induction h with
  | nil => rfl
  | cons h ih => rw [List.length_cons, List.length_cons, List.length_cons, ih]; ring

theorem readRows_at (m : Mem) (d s : Int) (n h : Nat) :
    (readRows m d s n h).flatten.length = h * n ∧ ∀ y k, y < h → k < n → (readRows m d s n h).flatten.getD (y * n + k) 0 = m (d + y * s + k) := by
  have := flatten_at (fun (y : Nat) => readBytes m (d + y * s) n) n (fun y => by unfold readBytes; simp) h
  refine ⟨this.1, fun y k hy hk => ?_⟩
  have h2 := this.2 y k hy hk
  unfold readRows
  rw [h2]
  unfold readBytes
  rw [List.getD_eq_getElem?_getD, List.getElem?_map, List.getElem?_range hk]
  rfl

theorem rgb_at (m : Mem) (im : Img) (h : Nat) :
    ((List.range h).map (rgbRow m im)).flatten.length = h * (im.width * 3) ∧
    ∀ x y c, x < im.width → y < h → c < 3 → ((List.range h).map (rgbRow m im)).flatten.getD (y * (im.width * 3) + 3 * x + c) 0 = m (byteAt im x y (2 - c)) := by
  have hrow : ∀ y, rgbRow m im y = (List.range (im.width * 3)).map fun k => m (byteAt im (k / 3) y (2 - k % 3)) := by
    intro y
    rw [flatMap_triples]
    unfold rgbRow
    apply List.flatMap_congr
    intro x _
    rw [show 3 * x / 3 = x by omega, show (3 * x + 1) / 3 = x by omega, show (3 * x + 2) / 3 = x by omega, show 3 * x % 3 = 0 by omega, show (3 * x + 1) % 3 = 1 by omega,
      show (3 * x + 2) % 3 = 2 by omega]
  have := flatten_at (rgbRow m im) (im.width * 3) (fun y => by rw [hrow]; simp) h
  refine ⟨this.1, fun x y c hx hy hc => ?_⟩
  rw [add_assoc, this.2 y (3 * x + c) hy (by omega), hrow, List.getD_eq_getElem?_getD, List.getElem?_map, List.getElem?_range (by omega)]
  simp only [Option.map_some, Option.getD_some]
  rw [show (3 * x + c) / 3 = x by omega, show (3 * x + c) % 3 = c by omega]

/-- **C72**: saving an image of any type to a .png file and loading that file again, either as the same type or as any type, reproduces the type, the size and all pixels: exactly.
Here `bits / 8` is the size of a pixel in bytes. The rows of 16-bit images must be an even number of bytes apart -/
theorem save_load (m : Mem) (sbuf : Int) (filename : List Char) (im : Img) (bits : Nat) (hb : bits = 8 ∨ bits = 16 ∨ bits = 24) (hw : 0 < im.width) (hh : 0 < im.height)
    (he : HasExt filename ".png") (h16 : bits = 16 → 2 ∣ im.stride) (hsep : bits = 24 → Separate im sbuf) (hsize : (im.height : Int) * (im.width * 3) < 2 ^ 62) :
    ∃ stored, genericSave m sbuf filename im bits = some stored ∧
    ∀ dec, PngDecodes dec stored → ∀ (m2 : Mem) (buf : Int) (requested : Nat), requested = bits ∨ requested = 0 →
      ∃ im' m', genericLoad dec requested m2 buf = .image bits im' m' ∧ im'.width = im.width ∧ im'.height = im.height ∧
        ∀ x y c : Nat, x < im.width → y < im.height → c < bits / 8 →
          m' (im'.data + y * im'.stride + (bits / 8 : Nat) * x + c) = m (im.data + y * im.stride + (bits / 8 : Nat) * x + c) := by
  rcases hb with rfl | rfl | rfl
  · rw [(genericSave_eq m sbuf filename im 8 hw hh (Or.inl rfl)).1 he]
    refine ⟨_, rfl, ?_⟩
    rintro dec ⟨d1, d2⟩ m2 buf requested hr
    obtain ⟨r1, r2⟩ := readRows_at m im.data im.stride im.width im.height
    have e : (prepared m sbuf im 8) = (im, m) := rfl
    rw [e] at d2
    simp only [show ¬ (8 = 16) by norm_num, if_false, show 8 / 8 = 1 from rfl, mul_one] at d2
    obtain ⟨m', l1, l2⟩ := load_gray dec m2 buf requested 1 im.width im.height _ d1 (by rcases hr with rfl | rfl; exact Or.inl ⟨rfl, Or.inl rfl⟩; exact Or.inr ⟨rfl, rfl⟩) d2
      (by rw [r1]; ring)
    refine ⟨_, m', l1, rfl, rfl, ?_⟩
    intro x y c hx hy hc
    have hc0 : c = 0 := by omega
    subst hc0
    have := l2 x y hx hy
    rw [r2 y x hy hx] at this
    simpa using this
  · rw [(genericSave_eq m sbuf filename im 16 hw hh (Or.inr (Or.inl rfl))).1 he]
    refine ⟨_, rfl, ?_⟩
    rintro dec ⟨d1, values, d2, d3⟩ m2 buf requested hr
    have hst : 2 * Int.tdiv im.stride 2 = im.stride := Int.mul_tdiv_cancel' (h16 rfl)
    have e : (prepared m sbuf im 16) = (im, m) := rfl
    rw [e] at d2 d3
    simp only [if_true, show 16 / 8 = 2 from rfl, hst] at d2 d3
    obtain ⟨r1, r2⟩ := readRows_at m im.data im.stride (im.width * 2) im.height
    have hlen := little_length d3
    rw [r1] at hlen
    obtain ⟨m', l1, l2⟩ := load_gray16 dec m2 buf requested im.width im.height values _ d1 hr d2 d3 (by
      have : im.height * (im.width * 2) = 2 * (im.width * im.height) := by ring
      omega)
    refine ⟨_, m', l1, rfl, rfl, ?_⟩
    intro x y c hx hy hc
    have := l2 x y c hx hy hc
    rw [add_assoc (y * (im.width * 2)), r2 y (2 * x + c) hy (by omega)] at this
    dsimp only
    push_cast at this ⊢
    rw [show im.data + y * im.stride + 2 * (x : Int) + c = im.data + y * im.stride + (2 * x + c) by ring]
    exact this
  · have hs := (save_color m sbuf filename im hw hh (hsep rfl) hsize).1 he
    refine ⟨_, hs, ?_⟩
    rintro dec ⟨d1, d2⟩ m2 buf requested hr
    obtain ⟨r1, r2⟩ := rgb_at m im im.height
    obtain ⟨m', l1, l2⟩ := load_color dec m2 buf requested 3 im.width im.height _ d1 (by rcases hr with rfl | rfl; exact Or.inl ⟨rfl, Or.inr (Or.inl rfl)⟩; exact Or.inr ⟨rfl, Or.inl rfl⟩) d2
      (by rw [r1]; ring) hsize
    refine ⟨_, m', l1, rfl, rfl, ?_⟩
    intro x y c hx hy hc
    have hc3 : c < 3 := hc
    have := l2 x y c hx hy hc3
    rw [r2 x y (2 - c) hx hy (by omega), show 2 - (2 - c) = c by omega] at this
    exact this

/-- a decoder that satisfies the contract for a given gray image -/
example (w h : Nat) (rows : List (List UInt8)) : PngDecodes ⟨some (1, false), fun _ => some (w, h, rows.flatten), none⟩ (.png 8 w h rows) := ⟨rfl, rfl⟩

/-! ### C73: stretch equalization -/

/-- the loop that finds the limits, from any starting point -/
theorem limits_fold (l : List Nat) : ∀ a b, ∃ mn mx, l.foldl (fun (p : Nat × Nat) x => if x < p.1 then (x, p.2) else if x > p.2 then (p.1, x) else (p.1, p.2)) (a, b) = (mn, mx) ∧
    mn ≤ a ∧ (∀ x ∈ l, mn ≤ x) ∧ (mn = a ∨ mn ∈ l) ∧ b ≤ mx ∧ (mx = b ∨ mx ∈ l) ∧ (∀ x ∈ l, a ≤ x → x ≤ mx) := by
  induction l with
  | nil => intro a b; exact ⟨a, b, rfl, le_rfl, by simp, Or.inl rfl, le_rfl, Or.inl rfl, by simp⟩
  | cons y l ih =>
    intro a b
    rw [List.foldl_cons]
    by_cases h1 : y < a
    · rw [if_pos h1]
      obtain ⟨mn, mx, e, p1, p2, p3, p4, p5, p6⟩ := ih y b
      refine ⟨mn, mx, e, by omega, ?_, ?_, p4, ?_, ?_⟩
      · intro x hx
        rcases List.mem_cons.1 hx with rfl | hx
        · exact p1
        · exact p2 x hx
      · right; rcases p3 with rfl | h
        · exact List.mem_cons_self
        · exact List.mem_cons_of_mem _ h
      · rcases p5 with h | h
        · exact Or.inl h
        · exact Or.inr (List.mem_cons_of_mem _ h)
      · intro x hx hax
        rcases List.mem_cons.1 hx with rfl | hx
        · omega
        · exact p6 x hx (by omega)
    · rw [if_neg h1]
      by_cases h2 : y > b
      · rw [if_pos h2]
        obtain ⟨mn, mx, e, p1, p2, p3, p4, p5, p6⟩ := ih a y
        refine ⟨mn, mx, e, p1, ?_, ?_, by omega, ?_, ?_⟩
        · intro x hx
          rcases List.mem_cons.1 hx with rfl | hx
          · omega
          · exact p2 x hx
        · rcases p3 with h | h
          · exact Or.inl h
          · exact Or.inr (List.mem_cons_of_mem _ h)
        · right; rcases p5 with rfl | h
          · exact List.mem_cons_self
          · exact List.mem_cons_of_mem _ h
        · intro x hx hax
          rcases List.mem_cons.1 hx with rfl | hx
          · exact p4
          · exact p6 x hx hax
      · rw [if_neg h2]
        obtain ⟨mn, mx, e, p1, p2, p3, p4, p5, p6⟩ := ih a b
        refine ⟨mn, mx, e, p1, ?_, ?_, p4, ?_, ?_⟩
        · intro x hx
          rcases List.mem_cons.1 hx with rfl | hx
          · omega
          · exact p2 x hx
        · rcases p3 with h | h
          · exact Or.inl h
          · exact Or.inr (List.mem_cons_of_mem _ h)
        · rcases p5 with h | h
          · exact Or.inl h
          · exact Or.inr (List.mem_cons_of_mem _ h)
        · intro x hx hax
          rcases List.mem_cons.1 hx with rfl | hx
          · omega
          · exact p6 x hx hax

theorem limits_found (p : Nat) (rest : List Nat) (lo hi : Nat) (h16 : ∀ x ∈ p :: rest, x ≤ 65535) (hlo : lo ∈ p :: rest) (hlo' : ∀ x ∈ p :: rest, lo ≤ x) (hhi : hi ∈ p :: rest)
    (hhi' : ∀ x ∈ p :: rest, x ≤ hi) (hfirst : hi ∈ rest ∨ hi = 65535) : stretchLimits (p :: rest) = (lo, hi) := by
  unfold stretchLimits
  have hmatch : (fun (q : Nat × Nat) x => if x < q.1 then (x, q.2) else if x > q.2 then (q.1, x) else (q.1, q.2)) =
      (fun ((mn, mx) : Nat × Nat) x => if x < mn then (x, mx) else if x > mx then (mn, x) else (mn, mx)) := rfl
  rw [← hmatch, List.foldl_cons]
  have hp := h16 p List.mem_cons_self
  obtain ⟨b, hb, hbp⟩ : ∃ b, (if p < 65535 then (p, 0) else if p > 0 then (65535, p) else (65535, 0)) = (p, b) ∧ (b = 0 ∨ (b = p ∧ p = 65535)) := by
    by_cases h : p < 65535
    · rw [if_pos h]; exact ⟨0, rfl, Or.inl rfl⟩
    · have : p = 65535 := by omega
      subst this
      exact ⟨65535, rfl, Or.inr ⟨rfl, rfl⟩⟩
  show rest.foldl _ (if p < 65535 then (p, 0) else if p > 0 then (65535, p) else (65535, 0)) = _
  rw [hb]
  obtain ⟨mn, mx, e, p1, p2, p3, p4, p5, p6⟩ := limits_fold rest p b
  rw [e]
  have m1 : mn = lo := by
    apply le_antisymm
    · rcases List.mem_cons.1 hlo with rfl | h
      · exact p1
      · exact p2 _ h
    · apply hlo'
      rcases p3 with rfl | h
      · exact List.mem_cons_self
      · exact List.mem_cons_of_mem _ h
  have m2 : mx = hi := by
    apply le_antisymm
    · rcases p5 with h | h
      · rcases hbp with h0 | ⟨h0, -⟩
        · omega
        · rw [h, h0]; exact hhi' p List.mem_cons_self
      · exact hhi' _ (List.mem_cons_of_mem _ h)
    · by_cases hr : hi ∈ rest
      · exact p6 hi hr (hhi' p List.mem_cons_self)
      · have h6 : hi = 65535 := by tauto
        have : hi = p := by
          rcases List.mem_cons.1 hhi with h | h
          · exact h
          · exact absurd h hr
        rcases hbp with h0 | ⟨h0, -⟩
        · exfalso
          have hb' : (if p < 65535 then (p, 0) else if p > 0 then (65535, p) else (65535, 0)) = ((65535, 65535) : Nat × Nat) := by
            rw [← this, h6]; rfl
          rw [hb'] at hb
          have := congrArg Prod.snd hb
          simp only at this
          omega
        · omega
  rw [m1, m2]

/-- **C73**: if the image isn't constant, and the largest value isn't only in the first pixel (unless it's 65535), then the values are mapped linearly, and rounded to the nearest integer:
the smallest value becomes 0 and the largest 255; and the order of values is kept. What's missing: the other images; see `stretch_wrong` -/
theorem stretch_partial (p : Nat) (rest : List Nat) (lo hi : Nat) (h16 : ∀ x ∈ p :: rest, x ≤ 65535) (hlo : lo ∈ p :: rest) (hlo' : ∀ x ∈ p :: rest, lo ≤ x) (hhi : hi ∈ p :: rest)
    (hhi' : ∀ x ∈ p :: rest, x ≤ hi) (hfirst : hi ∈ rest ∨ hi = 65535) (hne : lo < hi) :
    ∃ f : Nat → Nat, stretch (p :: rest) = (p :: rest).map (fun x => some (f x)) ∧ f lo = 0 ∧ f hi = 255 ∧
      (∀ x ∈ p :: rest, ∀ y ∈ p :: rest, x ≤ y → f x ≤ f y) ∧ (∀ x ∈ p :: rest, |(f x : Rat) - 255 * ((x : Rat) - lo) / ((hi : Rat) - lo)| ≤ 1 / 2) := by
  have hlim := limits_found p rest lo hi h16 hlo hlo' hhi hhi' hfirst
  have hhi16 := h16 hi hhi
  have hd : (0 : Rat) < (hi : Rat) - lo := by
    have : (lo : Rat) < hi := by exact_mod_cast hne
    linarith
  have hmm : (hi + 65536 - lo) % 65536 = hi - lo := by omega
  have hcast : ((hi - lo : Nat) : Rat) = (hi : Rat) - lo := by push_cast [Nat.cast_sub hne.le]; ring
  let g : Nat → Rat := fun x => 1 / 2 + ((x : Rat) - lo) * 255 / ((hi : Rat) - lo)
  have hg0 : ∀ x ∈ p :: rest, 1 / 2 ≤ g x := by
    intro x hx
    have : (lo : Rat) ≤ x := by exact_mod_cast hlo' x hx
    have : 0 ≤ ((x : Rat) - lo) * 255 / ((hi : Rat) - lo) := div_nonneg (mul_nonneg (by linarith) (by norm_num)) hd.le
    show 1 / 2 ≤ 1 / 2 + _
    linarith
  have hg1 : ∀ x ∈ p :: rest, g x ≤ 255 + 1 / 2 := by
    intro x hx
    have : (x : Rat) ≤ hi := by exact_mod_cast hhi' x hx
    have : ((x : Rat) - lo) * 255 / ((hi : Rat) - lo) ≤ 255 := by
      rw [div_le_iff₀ hd]; nlinarith
    show 1 / 2 + _ ≤ _
    linarith
  have hf : ∀ x ∈ p :: rest, ((⌊g x⌋.toNat : Nat) : Rat) = (⌊g x⌋ : Rat) := by
    intro x hx
    have h0 : 0 ≤ ⌊g x⌋ := Int.floor_nonneg.2 (by have := hg0 x hx; linarith)
    have : ((⌊g x⌋.toNat : Nat) : Int) = ⌊g x⌋ := Int.toNat_of_nonneg h0
    exact_mod_cast this
  refine ⟨fun x => ⌊g x⌋.toNat, ?_, ?_, ?_, ?_, ?_⟩
  · unfold stretch
    rw [hlim]
    apply List.map_congr_left
    intro x hx
    unfold stretchPixel
    simp only [hmm]
    rw [if_neg (by omega)]
    have hxc : ((x - lo : Nat) : Rat) = (x : Rat) - lo := by rw [Nat.cast_sub (hlo' x hx)]
    have hv : (1 / 2 + ((x - lo : Nat) : Rat) * 255 / ((hi - lo : Nat) : Rat)) = g x := by rw [hxc, hcast]
    rw [hv, if_pos (by have := hg1 x hx; linarith)]
    rfl
  · show ⌊g lo⌋.toNat = 0
    have : g lo = 1 / 2 := by show 1 / 2 + ((lo : Rat) - lo) * 255 / _ = _; rw [sub_self]; simp
    rw [this]; norm_num
  · show ⌊g hi⌋.toNat = 255
    have : g hi = 255 + 1 / 2 := by
      show 1 / 2 + ((hi : Rat) - lo) * 255 / _ = _
      field_simp; ring
    rw [this, show ⌊(255 + 1 / 2 : Rat)⌋ = 255 by norm_num]; rfl
  · intro x _ y _ hxy
    apply Int.toNat_le_toNat
    apply Int.floor_le_floor
    have : (x : Rat) ≤ y := by exact_mod_cast hxy
    show 1 / 2 + _ ≤ 1 / 2 + _
    gcongr
  · intro x hx
    show |((⌊g x⌋.toNat : Nat) : Rat) - _| ≤ _
    rw [hf x hx]
    have h1 := Int.floor_le (g x)
    have h2 := Int.lt_floor_add_one (g x)
    have hgx : g x = 1 / 2 + 255 * ((x : Rat) - lo) / ((hi : Rat) - lo) := by show 1 / 2 + _ = _; ring
    rw [hgx] at h1 h2 ⊢
    rw [abs_le]
    constructor <;> linarith

example : ∃ f : Nat → Nat, stretch [1000, 500, 3000, 2000] = [1000, 500, 3000, 2000].map (fun x => some (f x)) ∧ f 500 = 0 ∧ f 3000 = 255 := by
  obtain ⟨f, h1, h2, h3, -⟩ := stretch_partial 1000 [500, 3000, 2000] 500 3000 (by decide) (by decide) (by decide) (by decide) (by decide) (by decide) (by decide)
  exact ⟨f, h1, h2, h3⟩

theorem mapM_some (l : List Nat) (f : Nat → Nat) : (l.map fun x => some (f x)).mapM id = some (l.map f) := by
  induction l with
  | nil => rfl
  | cons a l ih => rw [List.map_cons, List.mapM_cons, ih]; rfl

/-- **C73**: a 16-bit image loaded as an 8-bit image, under the same conditions: this is the linear stretch of the values, at each pixel -/
theorem load_stretch_partial (dec : Decoder) (m : Mem) (buf : Int) (w h : Nat) (p : Nat) (rest : List Nat) (hi : dec.info = some (1, true)) (hdec : dec.load16 = some (w, h, p :: rest))
    (hlen : (p :: rest).length = w * h) (lo top : Nat) (h16 : ∀ x ∈ p :: rest, x ≤ 65535) (hlo : lo ∈ p :: rest) (hlo' : ∀ x ∈ p :: rest, lo ≤ x) (hhi : top ∈ p :: rest)
    (hhi' : ∀ x ∈ p :: rest, x ≤ top) (hfirst : top ∈ rest ∨ top = 65535) (hne : lo < top) :
    ∃ m', genericLoad dec 8 m buf = .image 8 ⟨w, h, w, buf⟩ m' ∧ ∀ x y v : Nat, x < w → y < h → (p :: rest)[y * w + x]? = some v →
      |((m' (buf + y * w + x)).toNat : Rat) - 255 * ((v : Rat) - lo) / ((top : Rat) - lo)| ≤ 1 / 2 := by
  obtain ⟨f, hs, -, f1, hmono, hf⟩ := stretch_partial p rest lo top h16 hlo hlo' hhi hhi' hfirst hne
  have hp : loadPlan dec.info 8 = some (8, .load16Stretch) := by rw [hi]; rfl
  refine ⟨putBytes m buf (((p :: rest).map f).map Nat.toUInt8), ?_, ?_⟩
  · unfold genericLoad
    rw [hp]
    simp only [hdec, hs, mapM_some]
    simp
  · intro x y v hx hy hv
    have hk := index_lt (n := 1) (c := 0) hx hy (by norm_num)
    have hk' : y * w + x < (((p :: rest).map f).map Nat.toUInt8).length := by rw [List.length_map, List.length_map, hlen]; simpa using hk
    have e := put_at m buf (((p :: rest).map f).map Nat.toUInt8) (y * w + x) hk'
    rw [show buf + (y : Int) * w + x = buf + ((y * w + x : Nat) : Int) by push_cast; ring, e, List.getD_eq_getElem?_getD, List.getElem?_map, List.getElem?_map, hv]
    have hmem : v ∈ p :: rest := List.mem_of_getElem? hv
    have hle : f v ≤ 255 := by rw [← f1]; exact hmono v hmem top hhi (hhi' v hmem)
    have : ((Option.map Nat.toUInt8 (Option.map f (some v))).getD 0).toNat = f v := by
      show (f v).toUInt8.toNat = f v
      simp; omega
    rw [this]
    exact hf v hmem

example : ∃ m', genericLoad ⟨some (1, true), fun _ => none, some (2, 2, [1000, 500, 3000, 2000])⟩ 8 (fun _ => 0) 4096 = .image 8 ⟨2, 2, 2, 4096⟩ m' ∧
    |((m' (4096 + 1 * 2 + 1)).toNat : Rat) - 255 * ((2000 : Rat) - 500) / ((3000 : Rat) - 500)| ≤ 1 / 2 := by
  obtain ⟨m', h1, h2⟩ := load_stretch_partial ⟨some (1, true), fun _ => none, some (2, 2, [1000, 500, 3000, 2000])⟩ (fun _ => 0) 4096 2 2 1000 [500, 3000, 2000] rfl rfl (by decide) 500 3000 (by decide)
    (by decide) (by decide) (by decide) (by decide) (by decide) (by decide)
  exact ⟨m', h1, by simpa using h2 1 1 2000 (by norm_num) (by norm_num) rfl⟩

/-- **C73**, deviations: the first pixel is never used for the maximum. If the largest value appears only there, then the results are wrong: the maximum of 100, 0, 50 is taken to be 50;
the first pixel would be 510, which doesn't fit a byte. And if the values only decrease then the maximum is taken to be 0; everything maps to 0. A constant image divides 0 by 0 -/
theorem stretch_wrong : stretch [100, 0, 50] = [none, some 0, some 255] ∧ stretch [10, 5] = [some 0, some 0] ∧ stretch [7, 7] = [none, none] := by
  refine ⟨?_, ?_, ?_⟩ <;> decide +kernel

end Mrcal.ImageIO
