import Verif.Model.ColorMap
import Mathlib.Tactic.Linarith
import Mathlib.Tactic.Ring
import Mathlib.Tactic.NormNum
import Mathlib.Tactic.FieldSimp
import Mathlib.Tactic.Positivity
import Mathlib.Tactic.IntervalCases
/-
C41: color-coding of images
-/
namespace Mrcal.ColorMap
open Mrcal.Stereo

/-! ### what we expect -/

/-- limited to [0,1] -/
noncomputable def clamp01 (x : ℝ) : ℝ := max 0 (min 1 x)

/-- the formulas in gnuplot's documentation ("show palette rgbformulae"), also in the comment at stereo.c:1129-1145 -/
noncomputable def docFormula (n : Nat) (x : ℝ) : ℝ :=
  match n with
  | 0 => 0
  | 1 => 0.5
  | 2 => 1
  | 3 => x
  | 4 => x ^ 2
  | 5 => x ^ 3
  | 6 => x ^ 4
  | 7 => Real.sqrt x
  | 8 => Real.sqrt (Real.sqrt x)
  | 9 => Real.sin (Real.pi / 2 * x)
  | 10 => Real.cos (Real.pi / 2 * x)
  | 11 => |x - 0.5|
  | 12 => (2 * x - 1) ^ 2
  | 13 => Real.sin (Real.pi * x)
  | 14 => |Real.cos (Real.pi * x)|
  | 15 => Real.sin (2 * Real.pi * x)
  | 16 => Real.cos (2 * Real.pi * x)
  | 17 => |Real.sin (2 * Real.pi * x)|
  | 18 => |Real.cos (2 * Real.pi * x)|
  | 19 => |Real.sin (4 * Real.pi * x)|
  | 20 => |Real.cos (4 * Real.pi * x)|
  | 21 => 3 * x
  | 22 => 3 * x - 1
  | 23 => 3 * x - 2
  | 24 => |3 * x - 1|
  | 25 => |3 * x - 2|
  | 26 => (3 * x - 1) / 2
  | 27 => (3 * x - 2) / 2
  | 28 => |(3 * x - 1) / 2|
  | 29 => |(3 * x - 2) / 2|
  | 30 => x / 0.32 - 0.78125
  | 31 => 2 * x - 0.84
  | 32 => min (4 * x) (max (-2 * x + 1.84) (x / 0.08 - 11.5))
  | 33 => |2 * x - 0.5|
  | 34 => 2 * x
  | 35 => 2 * x - 0.5
  | _ => 2 * x - 1

/-- `k` is the level 0..255 for a formula at `x`: the closest one to 255 times the value, limited to [0,1]. A negative number is the inverted formula -/
def Level (f : Int) (x : ℝ) (k : Nat) : Prop :=
  k ≤ 255 ∧ |(k : ℝ) - 255 * clamp01 (docFormula f.natAbs (if f < 0 then 1 - x else x))| ≤ 1 / 2

/-- `v` is the value of a pixel of the image -/
def InImage {α : Type} (im : Image α) (v : α) : Prop := ∃ x y, x < im.width ∧ y < im.height ∧ im.px x y = v

/-! ### the formulas -/

theorem clamp_code (x : ℝ) : (if x ≤ 0 then 0 else if x ≥ 1 then 1 else x) = clamp01 x := by
  unfold clamp01
  by_cases h : x ≤ 0
  · rw [if_pos h, min_eq_right (by linarith), max_eq_left h]
  · rw [if_neg h]
    by_cases h1 : x ≥ 1
    · rw [if_pos h1, min_eq_left h1, max_eq_right (by norm_num)]
    · rw [if_neg h1, min_eq_right (by linarith), max_eq_right (by linarith)]

theorem clamp_range (x : ℝ) : 0 ≤ clamp01 x ∧ clamp01 x ≤ 1 := by
  unfold clamp01
  exact ⟨le_max_left _ _, max_le (by norm_num) (min_le_left _ _)⟩

theorem clamp_le {x : ℝ} (h : x ≤ 0) : clamp01 x = 0 := by rw [← clamp_code, if_pos h]
theorem clamp_ge {x : ℝ} (h : 1 ≤ x) : clamp01 x = 1 := by
  rw [← clamp_code, if_neg (by linarith), if_pos h]

theorem level_round (v : ℝ) (h0 : 0 ≤ v) (h1 : v ≤ 1) : ⌊1 / 2 + 255 * v⌋₊ ≤ 255 ∧ |((⌊1 / 2 + 255 * v⌋₊ : Nat) : ℝ) - 255 * v| ≤ 1 / 2 := by
  have hnn : (0 : ℝ) ≤ 1 / 2 + 255 * v := by linarith
  have a := Nat.floor_le hnn
  have b := Nat.lt_floor_add_one (1 / 2 + 255 * v)
  constructor
  · have : ⌊1 / 2 + 255 * v⌋₊ < 256 := by
      rw [Nat.floor_lt hnn]; push_cast; linarith
    omega
  · rw [abs_le]; constructor <;> linarith

theorem value_doc (n : Nat) (hn : n ≤ 36) (x : ℝ) : ∃ v, formulaValue n x = some v ∧ clamp01 v = clamp01 (docFormula n x) := by
  have hs : ∀ c : ℝ, c * x * Real.pi / 180 = c / 180 * Real.pi * x := by intro c; ring
  interval_cases n
  case «30» =>
    refine ⟨_, rfl, ?_⟩
    simp only [docFormula]
    by_cases h : x ≤ 25 / 100
    · rw [if_pos h, clamp_le le_rfl, clamp_le]; norm_num; linarith
    · rw [if_neg h]
      by_cases h1 : x ≥ 57 / 100
      · rw [if_pos h1, clamp_ge le_rfl, clamp_ge]; norm_num; linarith
      · rw [if_neg h1]; norm_num
  case «31» =>
    refine ⟨_, rfl, ?_⟩
    simp only [docFormula]
    by_cases h : x ≤ 42 / 100
    · rw [if_pos h, clamp_le le_rfl, clamp_le]; norm_num; linarith
    · rw [if_neg h]
      by_cases h1 : x ≥ 92 / 100
      · rw [if_pos h1, clamp_ge le_rfl, clamp_ge]; norm_num; linarith
      · rw [if_neg h1]; norm_num
  case «32» =>
    refine ⟨_, rfl, ?_⟩
    simp only [docFormula]
    have e1 : (1.84 : ℝ) = 184 / 100 := by norm_num
    have e2 : (0.08 : ℝ) = 8 / 100 := by norm_num
    have e3 : (11.5 : ℝ) = 115 / 10 := by norm_num
    rw [e1, e2, e3]
    have e4 : x / (8 / 100 : ℝ) = 25 / 2 * x := by ring
    rw [e4]
    by_cases h : x ≤ 42 / 100
    · rw [if_pos h, max_eq_left (by linarith)]
      by_cases h2 : 4 * x ≤ -2 * x + 184 / 100
      · rw [min_eq_left h2, mul_comm]
      · rw [min_eq_right (by linarith), clamp_ge (by linarith), clamp_ge (by linarith)]
    · rw [if_neg h]
      by_cases h1 : x ≤ 92 / 100
      · rw [if_pos h1, max_eq_left (by linarith), min_eq_right (by linarith)]
      · rw [if_neg h1, max_eq_right (by linarith)]
        by_cases h2 : 4 * x ≤ 25 / 2 * x - 115 / 10
        · rw [min_eq_left h2, clamp_ge (by linarith), clamp_ge (by linarith)]
        · rw [min_eq_right (by linarith)]
  all_goals
    refine ⟨_, rfl, ?_⟩
    first
      | rfl
      | (congr 1
         simp only [docFormula]
         first
           | ring1
           | (congr 1; ring1)
           | (congr 2; ring1)
           | (norm_num; done)
           | (congr 1; norm_num; done)
           | (congr 2; norm_num; done))

theorem colorFormula_eq (f : Int) (x : ℝ) :
    colorFormula f x = (formulaValue f.natAbs (if f < 0 then 1 - x else x)).map (fun v => ⌊1 / 2 + 255 * clamp01 v⌋₊) := by
  unfold colorFormula
  by_cases h : f < 0
  · rw [if_pos h, if_pos h]
    simp only [clamp_code]
    rw [show (-f).toNat = f.natAbs by omega]
    cases formulaValue f.natAbs (1 - x) <;> rfl
  · rw [if_neg h, if_neg h]
    simp only [clamp_code]
    rw [show f.toNat = f.natAbs by omega]
    cases formulaValue f.natAbs x <;> rfl

/-- **C41**: the color formulas are the documented ones: 0 to 36 and their negatives. Others are rejected -/
theorem formula_documented (f : Int) (x : ℝ) :
    (f.natAbs ≤ 36 → ∃ k, colorFormula f x = some k ∧ Level f x k) ∧ (36 < f.natAbs → colorFormula f x = none) := by
  rw [colorFormula_eq]
  constructor
  · intro h
    obtain ⟨v, hv, hc⟩ := value_doc f.natAbs h (if f < 0 then 1 - x else x)
    rw [hv]
    have hr := clamp_range v
    obtain ⟨h1, h2⟩ := level_round (clamp01 v) hr.1 hr.2
    exact ⟨_, rfl, h1, by rw [← hc]; exact h2⟩
  · intro h
    have : formulaValue f.natAbs (if f < 0 then 1 - x else x) = none := by
      obtain ⟨m, hm⟩ : ∃ m, f.natAbs = m + 37 := ⟨f.natAbs - 37, by omega⟩
      rw [hm]; rfl
    rw [this]; rfl

/-- the default formulas, at the ends: black, then yellow (red + green) -/
example : colorFormula 7 0 = some 0 ∧ colorFormula 7 1 = some 255 ∧ colorFormula 5 1 = some 255 ∧ colorFormula (-3) 1 = some 0 := by
  have h0 : ∀ v : ℝ, v ≤ 0 → ⌊1 / 2 + 255 * clamp01 v⌋₊ = 0 := by
    intro v hv; rw [clamp_le hv, Nat.floor_eq_zero]; norm_num
  have h1 : ∀ v : ℝ, 1 ≤ v → ⌊1 / 2 + 255 * clamp01 v⌋₊ = 255 := by
    intro v hv; rw [clamp_ge hv, Nat.floor_eq_iff (by norm_num)]; norm_num
  have e1 : formulaValue 7 0 = some (Real.sqrt 0) := rfl
  have e2 : formulaValue 7 1 = some (Real.sqrt 1) := rfl
  have e3 : formulaValue 5 1 = some (1 * 1 * 1) := rfl
  have e4 : formulaValue 3 (1 - 1) = some (1 - 1) := rfl
  simp only [colorFormula_eq]
  refine ⟨?_, ?_, ?_, ?_⟩
  · rw [if_neg (by norm_num), show (7 : Int).natAbs = 7 from rfl, e1, Option.map_some, h0 _ (by simp)]
  · rw [if_neg (by norm_num), show (7 : Int).natAbs = 7 from rfl, e2, Option.map_some, h1 _ (by simp)]
  · rw [if_neg (by norm_num), show (5 : Int).natAbs = 5 from rfl, e3, Option.map_some, h1 _ (by norm_num)]
  · rw [if_pos (by norm_num), show (-3 : Int).natAbs = 3 from rfl, e4, Option.map_some, h0 _ (by norm_num)]

/-! ### the bounds -/

theorem mem_pixels {α : Type} (im : Image α) (v : α) : v ∈ pixels im ↔ InImage im v := by
  unfold pixels InImage
  rw [List.mem_flatMap]
  constructor
  · rintro ⟨y, hy, hv⟩
    rw [List.mem_map] at hv
    obtain ⟨x, hx, rfl⟩ := hv
    exact ⟨x, y, List.mem_range.1 hx, List.mem_range.1 hy, rfl⟩
  · rintro ⟨x, y, hx, hy, rfl⟩
    exact ⟨y, List.mem_range.2 hy, List.mem_map.2 ⟨x, List.mem_range.2 hx, rfl⟩⟩

theorem fold_bounds {α : Type} [LinearOrder α] (amin amax : Bool) (l : List α) : ∀ b : α × α,
    (l.foldl (fun b v => (if amin && decide (v < b.1) then v else b.1, if amax && decide (v > b.2) then v else b.2)) b) =
    (if amin then l.foldl min b.1 else b.1, if amax then l.foldl max b.2 else b.2) := by
  induction l with
  | nil => intro b; cases amin <;> cases amax <;> rfl
  | cons v l ih =>
    intro b
    rw [List.foldl_cons, ih]
    have h1 : (if v < b.1 then v else b.1) = min b.1 v := by
      by_cases h : v < b.1
      · rw [if_pos h, min_eq_right h.le]
      · rw [if_neg h, min_eq_left (not_lt.1 h)]
    have h2 : (if b.2 < v then v else b.2) = max b.2 v := by
      by_cases h : b.2 < v
      · rw [if_pos h, max_eq_right h.le]
      · rw [if_neg h, max_eq_left (not_lt.1 h)]
    cases amin <;> cases amax <;> simp [h1, h2]

theorem foldl_min {α : Type} [LinearOrder α] (l : List α) : ∀ a : α, (l.foldl min a ∈ a :: l) ∧ ∀ v ∈ a :: l, l.foldl min a ≤ v := by
  induction l with
  | nil => intro a; simp
  | cons b l ih =>
    intro a
    rw [List.foldl_cons]
    obtain ⟨h1, h2⟩ := ih (min a b)
    constructor
    · rcases List.mem_cons.1 h1 with h | h
      · rw [h]
        rcases min_choice a b with h' | h' <;> rw [h'] <;> simp
      · exact List.mem_cons_of_mem _ (List.mem_cons_of_mem _ h)
    · intro v hv
      have h3 := h2 (min a b) List.mem_cons_self
      rcases List.mem_cons.1 hv with rfl | hv
      · exact le_trans h3 (min_le_left _ _)
      · rcases List.mem_cons.1 hv with rfl | hv
        · exact le_trans h3 (min_le_right _ _)
        · exact h2 v (List.mem_cons_of_mem _ hv)

theorem foldl_max {α : Type} [LinearOrder α] (l : List α) : ∀ a : α, (l.foldl max a ∈ a :: l) ∧ ∀ v ∈ a :: l, v ≤ l.foldl max a := by
  induction l with
  | nil => intro a; simp
  | cons b l ih =>
    intro a
    rw [List.foldl_cons]
    obtain ⟨h1, h2⟩ := ih (max a b)
    constructor
    · rcases List.mem_cons.1 h1 with h | h
      · rw [h]
        rcases max_choice a b with h' | h' <;> rw [h'] <;> simp
      · exact List.mem_cons_of_mem _ (List.mem_cons_of_mem _ h)
    · intro v hv
      have h3 := h2 (max a b) List.mem_cons_self
      rcases List.mem_cons.1 hv with rfl | hv
      · exact le_trans (le_max_left _ _) h3
      · rcases List.mem_cons.1 hv with rfl | hv
        · exact le_trans (le_max_right _ _) h3
        · exact h2 v (List.mem_cons_of_mem _ hv)

theorem bounds_eq {α : Type} [LinearOrder α] (T : PixelType α) (im : Image α) (amin amax : Bool) (lo hi : α) :
    bounds T im amin amax lo hi = (if amin then (pixels im).foldl min T.tmax else lo, if amax then (pixels im).foldl max T.tmin else hi) := by
  unfold bounds
  cases amin <;> cases amax <;> first | rfl | (simp only [Bool.or_true, Bool.true_or, Bool.or_false, if_true]; rw [fold_bounds]; simp)

/-- **C41**: the automatic lower bound is the smallest value in the image -/
theorem auto_min {α : Type} [LinearOrder α] (T : PixelType α) (im : Image α) (amax : Bool) (lo hi : α) (h : ∃ v, InImage im v ∧ v ≤ T.tmax) :
    IsLeast {v | InImage im v} (bounds T im true amax lo hi).1 := by
  rw [bounds_eq]
  obtain ⟨h1, h2⟩ := foldl_min (pixels im) T.tmax
  obtain ⟨v, hv, hle⟩ := h
  simp only [if_true]
  refine ⟨?_, fun w hw => h2 w (List.mem_cons_of_mem _ ((mem_pixels im w).2 hw))⟩
  rcases List.mem_cons.1 h1 with h | h
  · have h3 := h2 v (List.mem_cons_of_mem _ ((mem_pixels im v).2 hv))
    have h4 : (pixels im).foldl min T.tmax = v := le_antisymm h3 (by rw [h]; exact hle)
    rw [h4]; exact hv
  · exact (mem_pixels im _).1 h

/-- **C41**: the automatic upper bound is the largest value in the image, if there's any pixel no smaller than the smallest value of this type: this is always so for integers -/
theorem auto_max {α : Type} [LinearOrder α] (T : PixelType α) (im : Image α) (amin : Bool) (lo hi : α) (h : ∃ v, InImage im v ∧ T.tmin ≤ v) :
    IsGreatest {v | InImage im v} (bounds T im amin true lo hi).2 := by
  rw [bounds_eq]
  obtain ⟨h1, h2⟩ := foldl_max (pixels im) T.tmin
  obtain ⟨v, hv, hle⟩ := h
  simp only [if_true]
  refine ⟨?_, fun w hw => h2 w (List.mem_cons_of_mem _ ((mem_pixels im w).2 hw))⟩
  rcases List.mem_cons.1 h1 with h | h
  · have h3 := h2 v (List.mem_cons_of_mem _ ((mem_pixels im v).2 hv))
    have h4 : (pixels im).foldl max T.tmin = v := le_antisymm (by rw [h]; exact hle) h3
    rw [h4]; exact hv
  · exact (mem_pixels im _).1 h

/-- **C41**: for every integer type the automatic bounds are the smallest and the largest values in the image, whatever it contains -/
theorem auto_bounds_integer (bits : Nat) (im : Image Int) (lo hi : Int) (h : ∃ v, InImage im v) :
    ((∀ v, InImage im v → 0 ≤ v ∧ v < 2 ^ bits) → IsLeast {v | InImage im v} (bounds (uintT bits) im true true lo hi).1 ∧ IsGreatest {v | InImage im v} (bounds (uintT bits) im true true lo hi).2) ∧
    ((∀ v, InImage im v → -2 ^ (bits - 1) ≤ v ∧ v < 2 ^ (bits - 1)) → IsLeast {v | InImage im v} (bounds (intT bits) im true true lo hi).1 ∧ IsGreatest {v | InImage im v} (bounds (intT bits) im true true lo hi).2) := by
  obtain ⟨v, hv⟩ := h
  constructor <;> intro hr
  · exact ⟨auto_min _ im true lo hi ⟨v, hv, Int.le_sub_one_of_lt (hr v hv).2⟩, auto_max _ im true lo hi ⟨v, hv, (hr v hv).1⟩⟩
  · exact ⟨auto_min _ im true lo hi ⟨v, hv, Int.le_sub_one_of_lt (hr v hv).2⟩, auto_max _ im true lo hi ⟨v, hv, (hr v hv).1⟩⟩

example : ∃ v, InImage (⟨2, 2, fun x y => 200 + x + 3 * y⟩ : Image Int) v ∧ (0 ≤ v ∧ v < 2 ^ 8) := ⟨200, ⟨0, 0, by decide, by decide, by decide⟩, by decide, by decide⟩

/-- **C41**: bounds that were given are used -/
theorem given_bounds {α : Type} [LinearOrder α] (T : PixelType α) (im : Image α) (a : Bool) (lo hi : α) :
    (bounds T im false a lo hi).1 = lo ∧ (bounds T im a false lo hi).2 = hi := by
  rw [bounds_eq, bounds_eq]; simp

/-- **C41**, a deviation: FLT_MIN isn't the smallest `float`. For any image of floats that are all negative (or 0), the automatic upper bound isn't the largest value: it's larger -/
theorem auto_max_float_wrong (im : Image ℝ) (amin : Bool) (lo hi : ℝ) (h : ∀ v, InImage im v → v ≤ 0) :
    (∀ v, InImage im v → v < (bounds floatT im amin true lo hi).2) ∧ (∀ v, InImage im v → v < (bounds doubleT im amin true lo hi).2) := by
  rw [bounds_eq, bounds_eq]
  simp only [if_true]
  have h1 : (0 : ℝ) < floatT.tmin := by unfold floatT; positivity
  have h2 : (0 : ℝ) < doubleT.tmin := by unfold doubleT; positivity
  exact ⟨fun v hv => lt_of_le_of_lt (h v hv) (lt_of_lt_of_le h1 ((foldl_max (pixels im) floatT.tmin).2 _ List.mem_cons_self)),
    fun v hv => lt_of_le_of_lt (h v hv) (lt_of_lt_of_le h2 ((foldl_max (pixels im) doubleT.tmin).2 _ List.mem_cons_self))⟩

/-- one such image -/
example : InImage (⟨2, 1, fun x _ => -(x : ℝ) - 1⟩ : Image ℝ) (-1) ∧ ∀ v, InImage (⟨2, 1, fun x _ => -(x : ℝ) - 1⟩ : Image ℝ) v → v ≤ 0 := by
  constructor
  · exact ⟨0, 0, by norm_num, by norm_num, by norm_num⟩
  · rintro v ⟨x, y, -, -, rfl⟩
    have : (0 : ℝ) ≤ x := Nat.cast_nonneg x
    dsimp only; linarith

/-! ### interpolation -/

/-- linear interpolation between the bounds, limited to [0,1] -/
noncomputable def lin (lo hi v : ℝ) : ℝ := clamp01 ((v - lo) / (hi - lo))

/-- the differences that are computed are exact -/
def Exact {α : Type} [LinearOrder α] (T : PixelType α) (val : α → ℝ) (lo hi : α) : Prop :=
  StrictMono val ∧ ∀ v, lo < v → v < hi → T.diff v lo = val v - val lo ∧ T.diff hi lo = val hi - val lo

theorem fraction_lin {α : Type} [LinearOrder α] {T : PixelType α} {val : α → ℝ} {lo hi : α} (h : Exact T val lo hi) (hlt : lo < hi) (v : α) :
    fraction T lo hi v = lin (val lo) (val hi) (val v) := by
  obtain ⟨hm, hd⟩ := h
  have h0 : 0 < val hi - val lo := sub_pos.2 (hm hlt)
  unfold fraction lin
  by_cases h1 : v ≤ lo
  · rw [if_pos h1, clamp_le]
    exact div_nonpos_of_nonpos_of_nonneg (sub_nonpos.2 (hm.monotone h1)) h0.le
  · rw [if_neg h1]
    rw [not_le] at h1
    by_cases h2 : v ≥ hi
    · rw [if_pos h2, clamp_ge]
      rw [le_div_iff₀ h0, one_mul]
      have := hm.monotone h2
      linarith
    · rw [if_neg h2]
      rw [ge_iff_le, not_le] at h2
      obtain ⟨e1, e2⟩ := hd v h1 h2
      have h3 := hm h1
      have h4 := hm h2
      rw [e1, e2, ← clamp_code, if_neg, if_neg]
      · rw [ge_iff_le, not_le, div_lt_one h0]; linarith
      · rw [not_le]; exact div_pos (by linarith) h0

theorem exact_uint (bits : Nat) (lo hi : Int) (h0 : 0 ≤ lo) (h1 : hi < 2 ^ bits) : Exact (uintT bits) (fun v : Int => (v : ℝ)) lo hi := by
  refine ⟨Int.cast_strictMono, fun v ha hb => ?_⟩
  have key : ∀ a : Int, lo < a → a ≤ hi → (uintT bits).diff a lo = (a : ℝ) - (lo : ℝ) := by
    intro a h2 h3
    unfold uintT
    dsimp only
    by_cases hb : bits < 32
    · rw [if_pos hb]; push_cast; rfl
    · rw [if_neg hb, Int.emod_eq_of_lt (by omega) (by omega)]; push_cast; rfl
  exact ⟨key v ha hb.le, key hi (lt_trans ha hb) le_rfl⟩

theorem exact_int (bits : Nat) (lo hi : Int) (h : bits < 32 ∨ hi - lo < 2 ^ (bits - 1)) (hb0 : 0 < bits) : Exact (intT bits) (fun v : Int => (v : ℝ)) lo hi := by
  refine ⟨Int.cast_strictMono, fun v ha hb => ?_⟩
  have key : ∀ a : Int, lo < a → a ≤ hi → (intT bits).diff a lo = (a : ℝ) - (lo : ℝ) := by
    intro a h2 h3
    unfold intT
    dsimp only
    by_cases hb : bits < 32
    · rw [if_pos hb]; push_cast; rfl
    · rw [if_neg hb]
      have h4 : hi - lo < 2 ^ (bits - 1) := h.resolve_left hb
      have h5 : (2 : Int) ^ bits = 2 * 2 ^ (bits - 1) := by
        obtain ⟨m, rfl⟩ : ∃ m, bits = m + 1 := ⟨bits - 1, by omega⟩
        rw [Nat.add_sub_cancel, pow_succ]; ring
      unfold wrapSigned
      rw [h5]
      generalize (2 : Int) ^ (bits - 1) = X at *
      rw [Int.emod_eq_of_lt (by omega) (by omega)]
      push_cast; ring
  exact ⟨key v ha hb.le, key hi (lt_trans ha hb) le_rfl⟩

theorem exact_float (lo hi : ℝ) : Exact floatT (fun v : ℝ => v) lo hi ∧ Exact doubleT (fun v : ℝ => v) lo hi :=
  ⟨⟨strictMono_id, fun _ _ _ => ⟨rfl, rfl⟩⟩, ⟨strictMono_id, fun _ _ _ => ⟨rfl, rfl⟩⟩⟩

/-- **C41**, a deviation: the bounds may be so far apart that their difference doesn't fit into an int32_t. A value in the middle of the range is then colored as if it was at the top -/
theorem int32_wrong : colorFormula 3 (fraction (intT 32) (-2 ^ 31) (2 ^ 31 - 1) 0) = some 255 ∧ lin (-2 ^ 31) (2 ^ 31 - 1) 0 < 0.51 := by
  constructor
  · have : fraction (intT 32) (-2 ^ 31) (2 ^ 31 - 1) 0 = 2 ^ 31 := by
      unfold fraction
      rw [if_neg (by norm_num), if_neg (by norm_num)]
      unfold intT wrapSigned
      norm_num
    rw [this, colorFormula_eq, if_neg (by norm_num)]
    have e : formulaValue 3 (2 ^ 31) = some (2 ^ 31) := rfl
    rw [show (3 : Int).natAbs = 3 from rfl, e, Option.map_some, clamp_ge (by norm_num)]
    congr 1
    rw [Nat.floor_eq_iff (by norm_num)]; norm_num
  · unfold lin
    rw [← clamp_code, if_neg (by norm_num), if_neg (by norm_num)]
    norm_num

/-! ### the whole image -/

/-- the colors of a pixel with value `v` -/
def Colored (fr fg fb : Int) (x : ℝ) (p : Bgr) : Prop := Level fr x p.r ∧ Level fg x p.g ∧ Level fb x p.b

theorem colorPixel_ok {fr fg fb : Int} (hr : fr.natAbs ≤ 36) (hg : fg.natAbs ≤ 36) (hb : fb.natAbs ≤ 36) (x : ℝ) (out : Bgr) :
    (colorPixel fr fg fb x out).2 = true ∧ Colored fr fg fb x (colorPixel fr fg fb x out).1 := by
  obtain ⟨r, h1, h2⟩ := (formula_documented fr x).1 hr
  obtain ⟨g, h3, h4⟩ := (formula_documented fg x).1 hg
  obtain ⟨b, h5, h6⟩ := (formula_documented fb x).1 hb
  unfold colorPixel
  rw [h1, h3, h5]
  exact ⟨rfl, h2, h4, h6⟩

theorem colorPixel_bad {fr fg fb : Int} (h : 36 < fr.natAbs ∨ 36 < fg.natAbs ∨ 36 < fb.natAbs) (x : ℝ) (out : Bgr) : (colorPixel fr fg fb x out).2 = false := by
  unfold colorPixel
  cases hr : colorFormula fr x with
  | none => rfl
  | some r =>
    cases hg : colorFormula fg x with
    | none => rfl
    | some g =>
      cases hb : colorFormula fb x with
      | none => rfl
      | some b =>
        exfalso
        rcases h with h | h | h
        · rw [(formula_documented fr x).2 h] at hr; simp at hr
        · rw [(formula_documented fg x).2 h] at hg; simp at hg
        · rw [(formula_documented fb x).2 h] at hb; simp at hb

theorem fold_color {α : Type} [LinearOrder α] (T : PixelType α) (im : Image α) {fr fg fb : Int} (hr : fr.natAbs ≤ 36) (hg : fg.natAbs ≤ 36) (hb : fb.natAbs ≤ 36) (lo hi : α)
    (l : List (Nat × Nat)) : ∀ out, (l.foldl (colorStep T im fr fg fb lo hi) (out, true)).2 = true ∧
      ∀ x y, ((x, y) ∈ l → Colored fr fg fb (fraction T lo hi (im.px x y)) ((l.foldl (colorStep T im fr fg fb lo hi) (out, true)).1 x y)) ∧
        ((x, y) ∉ l → (l.foldl (colorStep T im fr fg fb lo hi) (out, true)).1 x y = out x y) := by
  induction l using List.reverseRecOn with
  | nil => intro out; simp
  | append_singleton l a ih =>
    intro out
    obtain ⟨i1, i2⟩ := ih out
    rw [List.foldl_append, List.foldl_cons, List.foldl_nil]
    generalize hs : l.foldl (colorStep T im fr fg fb lo hi) (out, true) = s at *
    unfold colorStep
    rw [i1]
    simp only [Bool.not_true, Bool.false_eq_true, if_false]
    obtain ⟨p1, p2⟩ := colorPixel_ok hr hg hb (fraction T lo hi (im.px a.1 a.2)) (s.1 a.1 a.2)
    refine ⟨p1, fun x y => ⟨fun hm => ?_, fun hm => ?_⟩⟩
    · by_cases hc : x = a.1 ∧ y = a.2
      · rw [if_pos hc, hc.1, hc.2]; exact p2
      · rw [if_neg hc]
        rcases List.mem_append.1 hm with h | h
        · exact (i2 x y).1 h
        · exfalso
          rw [List.mem_singleton] at h
          exact hc ⟨by rw [← h], by rw [← h]⟩
    · rw [List.mem_append, not_or] at hm
      rw [if_neg, (i2 x y).2 hm.1]
      rintro ⟨h1, h2⟩
      exact hm.2 (by rw [List.mem_singleton, h1, h2])

theorem mem_xy (w h x y : Nat) : (x, y) ∈ ((List.range h).flatMap fun y => (List.range w).map fun x => (x, y)) ↔ x < w ∧ y < h := by
  rw [List.mem_flatMap]
  constructor
  · rintro ⟨y', hy, hv⟩
    rw [List.mem_map] at hv
    obtain ⟨x', hx, he⟩ := hv
    simp only [Prod.mk.injEq] at he
    rw [← he.1, ← he.2]
    exact ⟨List.mem_range.1 hx, List.mem_range.1 hy⟩
  · rintro ⟨hx, hy⟩
    exact ⟨y, List.mem_range.2 hy, List.mem_map.2 ⟨x, List.mem_range.2 hx, rfl⟩⟩

/-- **C41**: with formulas that exist, each pixel of the output is the color at its linear interpolation between the bounds, for any type of pixels whose differences are exact.
This is successful. Nothing outside of the image is written -/
theorem color_map {α : Type} [LinearOrder α] (T : PixelType α) (val : α → ℝ) (out : Image Bgr) (im : Image α) (amin amax : Bool) (lo hi : α) (fr fg fb : Int)
    (hsize : im.width = out.width ∧ im.height = out.height) (hr : fr.natAbs ≤ 36) (hg : fg.natAbs ≤ 36) (hb : fb.natAbs ≤ 36)
    (hlt : (bounds T im amin amax lo hi).1 < (bounds T im amin amax lo hi).2) (hex : Exact T val (bounds T im amin amax lo hi).1 (bounds T im amin amax lo hi).2) :
    ∃ res, applyColorMap T out im amin amax false lo hi fr fg fb = (res, true) ∧ res.width = out.width ∧ res.height = out.height ∧
      ∀ x y, (x < im.width → y < im.height →
          Colored fr fg fb (lin (val (bounds T im amin amax lo hi).1) (val (bounds T im amin amax lo hi).2) (val (im.px x y))) (res.px x y)) ∧
        (¬ (x < im.width ∧ y < im.height) → res.px x y = out.px x y) := by
  generalize hB : bounds T im amin amax lo hi = B at *
  obtain ⟨f1, f2⟩ := fold_color T im hr hg hb B.1 B.2 ((List.range im.height).flatMap fun y => (List.range im.width).map fun x => (x, y)) out.px
  refine ⟨⟨out.width, out.height, (((List.range im.height).flatMap fun y => (List.range im.width).map fun x => (x, y)).foldl (colorStep T im fr fg fb B.1 B.2) (out.px, true)).1⟩, ?_, rfl, rfl, ?_⟩
  · unfold applyColorMap
    rw [if_neg (not_not.2 hsize)]
    simp only [Bool.false_eq_true, if_false, hB, f1]
  · intro x y
    obtain ⟨g1, g2⟩ := f2 x y
    constructor
    · intro hx hy
      rw [← fraction_lin hex hlt]
      exact g1 ((mem_xy _ _ _ _).2 ⟨hx, hy⟩)
    · intro h
      exact g2 (fun hc => h ((mem_xy _ _ _ _).1 hc))

/-- **C41**: the default formulas are 7,5,15 -/
theorem color_map_default {α : Type} [LinearOrder α] (T : PixelType α) (out : Image Bgr) (im : Image α) (amin amax : Bool) (lo hi : α) (fr fg fb : Int) :
    applyColorMap T out im amin amax true lo hi fr fg fb = applyColorMap T out im amin amax false lo hi 7 5 15 := by
  unfold applyColorMap; rfl

/-- **C41**: images of different sizes are rejected, and so are formulas that don't exist -/
theorem color_map_rejects {α : Type} [LinearOrder α] (T : PixelType α) (out : Image Bgr) (im : Image α) (amin amax af : Bool) (lo hi : α) (fr fg fb : Int) :
    ((im.width, im.height) ≠ (out.width, out.height) → applyColorMap T out im amin amax af lo hi fr fg fb = (out, false)) ∧
    (0 < im.width → 0 < im.height → (36 < fr.natAbs ∨ 36 < fg.natAbs ∨ 36 < fb.natAbs) → (applyColorMap T out im amin amax false lo hi fr fg fb).2 = false) := by
  constructor
  · intro h
    unfold applyColorMap
    rw [if_pos]
    rintro ⟨h1, h2⟩
    exact h (by rw [h1, h2])
  · intro hw hh hbad
    unfold applyColorMap
    by_cases hs : im.width = out.width ∧ im.height = out.height
    · rw [if_neg (not_not.2 hs)]
      simp only [Bool.false_eq_true, if_false]
      have hne : (0, 0) ∈ ((List.range im.height).flatMap fun y => (List.range im.width).map fun x => (x, y)) := (mem_xy _ _ _ _).2 ⟨hw, hh⟩
      generalize ((List.range im.height).flatMap fun y => (List.range im.width).map fun x => (x, y)) = l at hne
      generalize bounds T im amin amax lo hi = B
      cases l with
      | nil => simp at hne
      | cons a l =>
        rw [List.foldl_cons]
        have h1 : (colorStep T im fr fg fb B.1 B.2 (out.px, true) a).2 = false := by
          unfold colorStep
          exact colorPixel_bad hbad _ _
        have h2 : ∀ (l : List (Nat × Nat)) s, s.2 = false → (l.foldl (colorStep T im fr fg fb B.1 B.2) s).2 = false := by
          intro l
          induction l with
          | nil => intro s hs; exact hs
          | cons b l ih =>
            intro s hs
            rw [List.foldl_cons]
            apply ih
            unfold colorStep
            rw [hs]; exact hs
        exact h2 l _ h1
    · rw [if_pos hs]

/-- a concrete image, with automatic bounds: these are 3 and 7 -/
example : bounds (uintT 8) (⟨2, 2, fun x y => 3 + x + 3 * y⟩ : Image Int) true true 0 0 = (3, 7) ∧ Exact (uintT 8) (fun v : Int => (v : ℝ)) 3 7 := by
  constructor
  · decide +kernel
  · exact exact_uint 8 3 7 (by norm_num) (by norm_num)

end Mrcal.ColorMap
