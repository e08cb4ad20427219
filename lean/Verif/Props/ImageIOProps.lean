import Verif.Model.ImageIO
import Verif.Props.LensNameProps
import Mathlib.Data.List.ProdSigma
import Mathlib.Data.List.Nodup
import Mathlib.Data.List.Induction
import Mathlib.Tactic.IntervalCases
import Mathlib.Algebra.Order.Ring.Int
import Mathlib.Tactic.Linarith
import Mathlib.Tactic.Ring
import Mathlib.Tactic.NormNum
/-
C40: pixels in memory, bgr and rgb. C71: saving images. C72: loading images
-/
namespace Mrcal.ImageIO
open Mrcal.Name

/-! ### C40: pixel addresses -/

theorem signed64_of {v w : Int} (q : Int) (h : w = v + 2 ^ 64 * q) (h0 : -2 ^ 63 ≤ v) (h1 : v < 2 ^ 63) : signed64 w = v := by
  unfold signed64
  omega

/-- **C40**: the pixel at column x, row y is `y*stride + x*sizeof(pixel)` bytes after the start of the data. This holds if the stride is a multiple of the pixel size. If the pixel size isn't a power of 2
then the stride must not be negative either -/
theorem at_address (im : Img) (sz : Nat) (x y : Int) (hsz : 0 < sz) (hd : (sz : Int) ∣ im.stride) (hp : (sz : Int) ∣ 2 ^ 64 ∨ (0 ≤ y * im.stride ∧ y * im.stride < 2 ^ 64))
    (h0 : -2 ^ 63 ≤ y * im.stride + x * sz) (h1 : y * im.stride + x * sz < 2 ^ 63) : im.at_ sz x y = im.data + (y * im.stride + x * sz) := by
  unfold Img.at_
  congr 1
  have hm : (sz : Int) ∣ y * im.stride % 2 ^ 64 := by
    rcases hp with hp | ⟨h2, h3⟩
    · rw [Int.emod_def]
      exact Int.dvd_sub (Dvd.dvd.mul_left hd y) (Dvd.dvd.mul_right hp _)
    · rw [Int.emod_eq_of_lt h2 h3]; exact Dvd.dvd.mul_left hd y
  refine signed64_of (-(y * im.stride / 2 ^ 64)) ?_ h0 h1
  rw [mul_add, Int.mul_ediv_cancel' hm, Int.emod_def]
  ring

/-- **C40**, a deviation: the address of a color pixel is wrong if the stride isn't a multiple of 3, though the stride is documented to be any number of bytes -/
theorem at_address_wrong : (⟨3, 2, 10, 1000⟩ : Img).at_ 3 0 1 = 1000 + 9 := by decide

/-- **C40**: a pixel in a cropped image is the pixel in the original image: no data is copied -/
theorem crop_at (im : Img) (sz : Nat) (x0 y0 x y : Int) (w h : Nat) (hsz : 0 < sz) (hd : (sz : Int) ∣ im.stride) (hs : (sz : Int) ∣ 2 ^ 64 ∨ 0 ≤ im.stride) (hy0 : 0 ≤ y0) (hy : 0 ≤ y)
    (hb : |(y0 + y) * im.stride| < 2 ^ 61) (hx : |x0 * sz| < 2 ^ 61) (hx' : |x * sz| < 2 ^ 61) :
    (im.crop sz x0 y0 w h).at_ sz x y = im.at_ sz (x0 + x) (y0 + y) := by
  have ha : ∀ a : Int, 0 ≤ a → a ≤ y0 + y → |a * im.stride| < 2 ^ 61 := by
    intro a h1 h2
    rw [abs_mul] at hb ⊢
    refine lt_of_le_of_lt (mul_le_mul_of_nonneg_right ?_ (abs_nonneg _)) hb
    rw [abs_of_nonneg h1, abs_of_nonneg (by omega)]; exact h2
  have hp : ∀ a : Int, 0 ≤ a → a ≤ y0 + y → (sz : Int) ∣ 2 ^ 64 ∨ (0 ≤ a * im.stride ∧ a * im.stride < 2 ^ 64) := by
    intro a h1 h2
    rcases hs with h | h
    · exact Or.inl h
    · right
      have := abs_lt.1 (ha a h1 h2)
      exact ⟨mul_nonneg h1 h, by omega⟩
  have e1 := abs_lt.1 (ha y0 hy0 (by omega))
  have e2 := abs_lt.1 (ha y hy (by omega))
  have e3 := abs_lt.1 hb
  have e4 := abs_lt.1 hx
  have e5 := abs_lt.1 hx'
  have e6 : (x0 + x) * (sz : Int) = x0 * sz + x * sz := by ring
  rw [at_address im sz (x0 + x) (y0 + y) hsz hd (hp _ (by omega) le_rfl) (by rw [e6]; omega) (by rw [e6]; omega)]
  rw [at_address (im.crop sz x0 y0 w h) sz x y hsz hd (hp y hy (by omega)) (by show _ ≤ y * im.stride + _; omega) (by show y * im.stride + _ < _; omega)]
  show im.at_ sz x0 y0 + (y * im.stride + x * sz) = _
  rw [at_address im sz x0 y0 hsz hd (hp y0 hy0 (by omega)) (by omega) (by omega)]
  ring

example : ((⟨640, 480, 1920, 0⟩ : Img).crop 3 10 20 5 5).at_ 3 1 2 = 22 * 1920 + 11 * 3 := by decide
/-- an image that's stored upside-down -/
example : (⟨640, 480, -640, 479 * 640⟩ : Img).at_ 1 7 3 = 476 * 640 + 7 := by decide

/-! ### C40: bgr and rgb -/

/-- the address of a byte in a color image -/
def byteAt (im : Img) (x y c : Nat) : Int := im.data + y * im.stride + 3 * x + c

/-- a color image that makes sense: its rows don't overlap, its pixels can be addressed, it isn't too large -/
structure ColorImage (im : Img) : Prop where
  stride3 : 3 ∣ im.stride
  rows : 3 * (im.width : Int) ≤ im.stride
  size : im.height * im.stride < 2 ^ 62

theorem swaps (L : List Int) : ∀ m : Mem, L.Nodup → (∀ a ∈ L, ∀ b ∈ L, a = b ∨ 3 ≤ |a - b|) → ∀ c,
    (L.foldl (fun m a => swapBytes m a (a + 2)) m) c = if c ∈ L then m (c + 2) else if c - 2 ∈ L then m (c - 2) else m c := by
  induction L using List.reverseRecOn with
  | nil => intro m _ _ c; simp
  | append_singleton L a ih =>
    intro m hn hd c
    have hn' : L.Nodup := (List.nodup_append.1 hn).1
    have haL : a ∉ L := by
      intro h
      exact (List.nodup_append.1 hn).2.2 a h a (List.mem_singleton.2 rfl) rfl
    have hd' : ∀ b ∈ L, 3 ≤ |a - b| := by
      intro b hb
      rcases hd a (by simp) b (by simp [hb]) with h | h
      · rw [h] at haL; exact absurd hb haL
      · exact h
    have h2 : a + 2 ∉ L := by
      intro h; have := hd' _ h; rw [show a - (a + 2) = -2 by ring] at this; norm_num at this
    have h3 : a - 2 ∉ L := by
      intro h; have := hd' _ h; rw [show a - (a - 2) = 2 by ring] at this; norm_num at this
    rw [List.foldl_append, List.foldl_cons, List.foldl_nil]
    have ih' := ih m hn' (fun x hx y hy => hd x (by simp [hx]) y (by simp [hy]))
    generalize L.foldl (fun m a => swapBytes m a (a + 2)) m = m' at ih'
    unfold swapBytes
    simp only [List.mem_append, List.mem_singleton]
    by_cases h4 : c = a
    · rw [if_pos h4, if_pos (Or.inr h4), h4, ih', if_neg h2, if_neg (by rw [show a + 2 - 2 = a by ring]; exact haL)]
    · rw [if_neg h4]
      by_cases h5 : c = a + 2
      · rw [if_pos h5, ih', if_neg haL, if_neg h3, h5, if_neg, if_pos (Or.inr (by ring)), show a + 2 - 2 = a by ring]
        rintro (h | h)
        · exact h2 h
        · omega
      · rw [if_neg h5, ih']
        have e1 : (c ∈ L ∨ c = a) ↔ c ∈ L := by simp [h4]
        have e2 : (c - 2 ∈ L ∨ c - 2 = a) ↔ c - 2 ∈ L := by
          constructor
          · rintro (h | h)
            · exact h
            · exact absurd (by omega) h5
          · exact Or.inl
        simp only [e1, e2]

/-- the addresses of all the pixels -/
def pixelAddrs (im : Img) : List Int := (List.range im.height ×ˢ List.range im.width).map fun p => byteAt im p.2 p.1 0

theorem bgr_fold (im : Img) (hi : ColorImage im) (m : Mem) : bgrTofromRgb im m = (pixelAddrs im).foldl (fun m a => swapBytes m a (a + 2)) m := by
  unfold bgrTofromRgb pixelAddrs
  have hp : (List.range im.height ×ˢ List.range im.width : List (Nat × Nat)) = (List.range im.height).flatMap fun a => (List.range im.width).map (Prod.mk a) := rfl
  rw [hp, List.map_flatMap, List.foldl_flatMap]
  have key : ∀ (l : List Nat), (∀ i ∈ l, i < im.height) → ∀ m : Mem, l.foldl (fun m (i : Nat) =>
      let row := im.at_ 3 0 i
      (List.range im.width).foldl (fun m (j : Nat) => swapBytes m (row + 3 * j) (row + 3 * j + 2)) m) m =
      l.foldl (fun acc x => List.foldl (fun m a => swapBytes m a (a + 2)) acc (List.map (fun p => byteAt im p.2 p.1 0) (List.map (Prod.mk x) (List.range im.width)))) m := by
    intro l
    induction l with
    | nil => intro _ m; rfl
    | cons i l ih =>
      intro hl m
      rw [List.foldl_cons, List.foldl_cons, ih (fun j hj => hl j (List.mem_cons_of_mem _ hj))]
      congr 1
      have hih : i < im.height := hl i List.mem_cons_self
      have h0 : 0 ≤ im.stride := by have := hi.rows; omega
      have h1 : (i : Int) * im.stride ≤ im.height * im.stride := mul_le_mul_of_nonneg_right (by exact_mod_cast hih.le) h0
      have h2 : 0 ≤ (i : Int) * im.stride := mul_nonneg (by omega) h0
      have h3 := hi.size
      have hrow : im.at_ 3 0 i = im.data + i * im.stride := by
        rw [at_address im 3 0 i (by norm_num) hi.stride3 (Or.inr ⟨h2, by omega⟩) (by omega) (by omega)]
        ring
      simp only [hrow, List.map_map, List.foldl_map]
      have : ∀ j : Nat, im.data + i * im.stride + 3 * (j : Int) = byteAt im j i 0 := by intro j; unfold byteAt; push_cast; ring
      simp only [this]
      rfl
  exact key _ (fun i hi => List.mem_range.1 hi) m

theorem addr_apart (im : Img) (hi : ColorImage im) {x y x' y' : Nat} (hx : x < im.width) (hx' : x' < im.width) (h : ¬ (x = x' ∧ y = y')) :
    3 ≤ |byteAt im x y 0 - byteAt im x' y' 0| := by
  unfold byteAt
  have hr := hi.rows
  by_cases hy : y = y'
  · have hxx : x ≠ x' := fun hc => h ⟨hc, hy⟩
    rw [hy, show im.data + y' * im.stride + 3 * (x : Int) + ((0 : Nat) : Int) - (im.data + y' * im.stride + 3 * (x' : Int) + ((0 : Nat) : Int)) = 3 * ((x : Int) - x') by push_cast; ring, abs_mul]
    have : 1 ≤ |(x : Int) - x'| := by
      apply Int.one_le_abs
      intro hc; apply hxx; omega
    norm_num; omega
  · have key : ∀ (a b p q : Nat), p < im.width → q < im.width → a < b → 3 ≤ (b * im.stride + 3 * (q : Int)) - (a * im.stride + 3 * (p : Int)) := by
      intro a b p q hp hq hab
      have : ((a : Int) + 1) * im.stride ≤ b * im.stride := mul_le_mul_of_nonneg_right (by exact_mod_cast hab) (by omega)
      have e : ((a : Int) + 1) * im.stride = a * im.stride + im.stride := by ring
      omega
    rcases Nat.lt_or_gt_of_ne hy with h1 | h1
    · have := key y y' x x' hx hx' h1
      rw [abs_sub_comm]
      exact le_trans (by push_cast; omega) (le_abs_self _)
    · have := key y' y x' x hx' hx h1
      exact le_trans (by push_cast; omega) (le_abs_self _)

theorem addrs_ok (im : Img) (hi : ColorImage im) : (pixelAddrs im).Nodup ∧ ∀ a ∈ pixelAddrs im, ∀ b ∈ pixelAddrs im, a = b ∨ 3 ≤ |a - b| := by
  have hmem : ∀ p ∈ (List.range im.height ×ˢ List.range im.width : List (Nat × Nat)), p.2 < im.width := by
    intro p hp
    exact List.mem_range.1 (List.mem_product.1 hp).2
  constructor
  · unfold pixelAddrs
    refine List.Nodup.map_on ?_ (List.Nodup.product List.nodup_range List.nodup_range)
    intro p hp q hq he
    by_contra hne
    have := addr_apart im hi (hmem p hp) (hmem q hq) (y := p.1) (y' := q.1) (fun hc => hne (Prod.ext hc.2 hc.1))
    rw [he, sub_self] at this
    norm_num at this
  · intro a ha b hb
    unfold pixelAddrs at ha hb
    rw [List.mem_map] at ha hb
    obtain ⟨p, hp, rfl⟩ := ha
    obtain ⟨q, hq, rfl⟩ := hb
    by_cases h : p = q
    · left; rw [h]
    · right
      exact addr_apart im hi (hmem p hp) (hmem q hq) (fun hc => h (Prod.ext hc.2 hc.1))

theorem mem_addrs (im : Img) (a : Int) : a ∈ pixelAddrs im ↔ ∃ x y, x < im.width ∧ y < im.height ∧ a = byteAt im x y 0 := by
  unfold pixelAddrs
  rw [List.mem_map]
  constructor
  · rintro ⟨p, hp, rfl⟩
    have := List.mem_product.1 hp
    exact ⟨p.2, p.1, List.mem_range.1 this.2, List.mem_range.1 this.1, rfl⟩
  · rintro ⟨x, y, hx, hy, rfl⟩
    exact ⟨(y, x), List.mem_product.2 ⟨List.mem_range.2 hy, List.mem_range.2 hx⟩, rfl⟩

/-- **C40**: the conversion between bgr and rgb reverses the 3 bytes of each pixel; no other memory is changed -/
theorem bgr_rgb (im : Img) (hi : ColorImage im) (m : Mem) :
    (∀ x y c, x < im.width → y < im.height → c < 3 → bgrTofromRgb im m (byteAt im x y c) = m (byteAt im x y (2 - c))) ∧
    (∀ a, (∀ x y c, x < im.width → y < im.height → c < 3 → a ≠ byteAt im x y c) → bgrTofromRgb im m a = m a) := by
  rw [bgr_fold im hi]
  obtain ⟨h1, h2⟩ := addrs_ok im hi
  constructor
  · intro x y c hx hy hc
    rw [swaps _ _ h1 h2]
    have hin : byteAt im x y 0 ∈ pixelAddrs im := (mem_addrs im _).2 ⟨x, y, hx, hy, rfl⟩
    have hout : ∀ k : Int, 0 < |k| → |k| < 3 → byteAt im x y 0 + k ∉ pixelAddrs im := by
      intro k hk0 hk h
      rcases h2 _ h _ hin with h' | h'
      · have : k = 0 := by omega
        rw [this] at hk0; simp at hk0
      · rw [add_sub_cancel_left] at h'; omega
    have e : ∀ c : Nat, byteAt im x y c = byteAt im x y 0 + c := by intro c; unfold byteAt; push_cast; ring
    interval_cases c
    · rw [if_pos hin, e 2]; rfl
    · have a1 := hout 1 (by norm_num) (by norm_num)
      have a2 := hout (-1) (by norm_num) (by norm_num)
      rw [e 1]
      rw [if_neg (by exact_mod_cast a1), if_neg (by rw [show byteAt im x y 0 + ((1 : Nat) : Int) - 2 = byteAt im x y 0 + -1 by push_cast; ring]; exact a2)]
    · have a1 := hout 2 (by norm_num) (by norm_num)
      rw [e 2, if_neg (by exact_mod_cast a1), if_pos (by rw [show byteAt im x y 0 + ((2 : Nat) : Int) - 2 = byteAt im x y 0 by push_cast; ring]; exact hin)]
      congr 1
      push_cast; ring
  · intro a ha
    rw [swaps _ _ h1 h2, if_neg, if_neg]
    · intro h
      obtain ⟨x, y, hx, hy, he⟩ := (mem_addrs im _).1 h
      apply ha x y 2 hx hy (by norm_num)
      unfold byteAt at *
      push_cast at *
      omega
    · intro h
      obtain ⟨x, y, hx, hy, he⟩ := (mem_addrs im _).1 h
      exact ha x y 0 hx hy (by norm_num) he

/-- **C40**: so converting twice changes nothing -/
theorem bgr_rgb_involution (im : Img) (hi : ColorImage im) (m : Mem) : bgrTofromRgb im (bgrTofromRgb im m) = m := by
  funext a
  obtain ⟨h1, h2⟩ := bgr_rgb im hi m
  obtain ⟨k1, k2⟩ := bgr_rgb im hi (bgrTofromRgb im m)
  by_cases h : ∃ x y c, x < im.width ∧ y < im.height ∧ c < 3 ∧ a = byteAt im x y c
  · obtain ⟨x, y, c, hx, hy, hc, rfl⟩ := h
    rw [k1 x y c hx hy hc, h1 x y (2 - c) hx hy (by omega), show 2 - (2 - c) = c by omega]
  · have h' : ∀ x y c, x < im.width → y < im.height → c < 3 → a ≠ byteAt im x y c := fun x y c hx hy hc he => h ⟨x, y, c, hx, hy, hc, he⟩
    rw [k2 a h', h2 a h']

/-- such an image, with gaps between the rows -/
example : ColorImage ⟨640, 480, 1920 + 3, 100000⟩ := ⟨by decide, by decide, by decide⟩

end Mrcal.ImageIO
