import Verif.Model.ModelDiff
import Verif.Props.LensNameProps
/-
C95: the grid of pixels where the models are compared: sample_imager().
-/
namespace Mrcal.ModelDiff
open Mrcal Mrcal.Cam

/-- the point in this row, this column -/
def gridPoint (g : List (List P2)) (iy ix : Nat) : Option P2 := (g[iy]?).bind (·[ix]?)

theorem linspace_get (a : ℝ) (n i : Nat) (hi : i < n) : (linspace a n)[i]? = some (if n = 1 then 0 else a * (i : ℝ) / ((n : ℝ) - 1)) := by
  unfold linspace
  rw [List.getElem?_map, List.getElem?_range hi]
  rfl

theorem linspace_length (a : ℝ) (n : Nat) : (linspace a n).length = n := by simp [linspace]

theorem linspace_range (a : ℝ) (ha : 0 ≤ a) (n : Nat) (x : ℝ) (h : x ∈ linspace a n) : 0 ≤ x ∧ x ≤ a := by
  unfold linspace at h
  obtain ⟨i, hi, rfl⟩ := List.mem_map.mp h
  have hi := List.mem_range.mp hi
  split_ifs with h1
  · exact ⟨le_refl _, ha⟩
  · have hn : (0 : ℝ) < (n : ℝ) - 1 := by
      have : (2 : ℝ) ≤ (n : ℝ) := by exact_mod_cast (show 2 ≤ n by omega)
      linarith
    have hin : (i : ℝ) ≤ (n : ℝ) - 1 := by
      have : (i : ℝ) + 1 ≤ (n : ℝ) := by exact_mod_cast hi
      linarith
    refine ⟨div_nonneg (mul_nonneg ha (Nat.cast_nonneg _)) hn.le, ?_⟩
    rw [div_le_iff₀ hn]
    exact mul_le_mul_of_nonneg_left hin ha

/-- **C95**: the grid has the requested size, and the requested points: evenly spaced, from the center of the first pixel to the center of the last one -/
theorem grid_points (gw gh W H : Nat) : ∃ g, sampleImager gw (some gh) W H = some g ∧ g.length = gh ∧ (∀ row ∈ g, row.length = gw) ∧
    ∀ iy < gh, ∀ ix < gw, ∃ p, gridPoint g iy ix = some p ∧
      p.x * ((gw : ℝ) - 1) = ((W : ℝ) - 1) * ix ∧ p.y * ((gh : ℝ) - 1) = ((H : ℝ) - 1) * iy := by
  refine ⟨_, rfl, by simp [linspace_length], fun row h => ?_, fun iy hy ix hx => ?_⟩
  · obtain ⟨y, -, rfl⟩ := List.mem_map.mp h
    simp [linspace_length]
  · have key : ∀ (a : ℝ) (n i : Nat), i < n → (if n = 1 then 0 else a * (i : ℝ) / ((n : ℝ) - 1)) * ((n : ℝ) - 1) = a * i := by
      intro a n i hi
      split_ifs with h1
      · have : i = 0 := by omega
        rw [this, h1]; norm_num
      · have : (n : ℝ) - 1 ≠ 0 := by
          intro h
          apply h1
          have : (n : ℝ) = 1 := by linarith
          exact_mod_cast this
        field_simp
    refine ⟨⟨_, _⟩, ?_, key _ gw ix hx, key _ gh iy hy⟩
    unfold gridPoint
    rw [List.getElem?_map, linspace_get _ _ _ hy]
    show (List.map _ _)[ix]? = _
    rw [List.getElem?_map, linspace_get _ _ _ hx]
    rfl

/-- **C95**: all the points are in the image -/
theorem grid_inside (gw W H : Nat) (gh : Option Nat) (hW : 1 ≤ W) (hH : 1 ≤ H) (g : List (List P2)) (h : sampleImager gw gh W H = some g) :
    ∀ row ∈ g, ∀ p ∈ row, 0 ≤ p.x ∧ p.x ≤ (W : ℝ) - 1 ∧ 0 ≤ p.y ∧ p.y ≤ (H : ℝ) - 1 := by
  unfold sampleImager at h
  obtain ⟨n, -, rfl⟩ := Option.map_eq_some_iff.mp h
  intro row hr p hp
  obtain ⟨y, hy, rfl⟩ := List.mem_map.mp hr
  obtain ⟨x, hx, rfl⟩ := List.mem_map.mp hp
  have hW' : (0 : ℝ) ≤ (W : ℝ) - 1 := by have : (1 : ℝ) ≤ W := by exact_mod_cast hW
                                         linarith
  have hH' : (0 : ℝ) ≤ (H : ℝ) - 1 := by have : (1 : ℝ) ≤ H := by exact_mod_cast hH
                                         linarith
  exact ⟨(linspace_range _ hW' _ _ hx).1, (linspace_range _ hW' _ _ hx).2, (linspace_range _ hH' _ _ hy).1, (linspace_range _ hH' _ _ hy).2⟩

/-- **C95**: the corners of the grid are the corners of the image, as documented, if there are at least 2 rows and columns -/
theorem grid_corners_partial (gw gh W H : Nat) (hw : 2 ≤ gw) (hh : 2 ≤ gh) (g : List (List P2)) (h : sampleImager gw (some gh) W H = some g) :
    gridPoint g 0 0 = some ⟨0, 0⟩ ∧ gridPoint g (gh - 1) (gw - 1) = some ⟨(W : ℝ) - 1, (H : ℝ) - 1⟩ := by
  obtain ⟨g', h', -, -, hp⟩ := grid_points gw gh W H
  obtain rfl : g' = g := by rw [h] at h'; exact (Option.some.inj h').symm
  have nw : (gw : ℝ) - 1 ≠ 0 := by have : (2 : ℝ) ≤ gw := by exact_mod_cast hw
                                   linarith
  have nh : (gh : ℝ) - 1 ≠ 0 := by have : (2 : ℝ) ≤ gh := by exact_mod_cast hh
                                   linarith
  obtain ⟨p, e, ex, ey⟩ := hp 0 (by omega) 0 (by omega)
  obtain ⟨p', e', ex', ey'⟩ := hp (gh - 1) (by omega) (gw - 1) (by omega)
  rw [e, e']
  rw [Nat.cast_sub (by omega)] at ex' ey'
  push_cast at ex ey ex' ey'
  refine ⟨?_, ?_⟩
  · congr 1
    ext
    · exact (mul_eq_zero.mp (by linarith [ex] : p.x * ((gw : ℝ) - 1) = 0)).resolve_right nw
    · exact (mul_eq_zero.mp (by linarith [ey] : p.y * ((gh : ℝ) - 1) = 0)).resolve_right nh
  · congr 1
    ext
    · exact mul_right_cancel₀ nw ex'
    · exact mul_right_cancel₀ nh ey'

/-- **C95**, negation: with one column the bottom-right point is not the bottom-right corner -/
theorem grid_corner_wrong (W H : Nat) (hW : 2 ≤ W) : ∃ g p, sampleImager 1 (some 2) W H = some g ∧ gridPoint g 1 0 = some p ∧ p ≠ ⟨(W : ℝ) - 1, (H : ℝ) - 1⟩ := by
  refine ⟨_, ⟨0, (H : ℝ) - 1⟩, rfl, ?_, ?_⟩
  · unfold gridPoint
    rw [List.getElem?_map, linspace_get _ _ _ (by norm_num)]
    show (List.map _ _)[0]? = _
    rw [List.getElem?_map, linspace_get _ _ _ (by norm_num)]
    norm_num
  · intro h
    have := congrArg P2.x h
    have h2 : (2 : ℝ) ≤ W := by exact_mod_cast hW
    dsimp only at this
    linarith

/-- **C95**: when the number of rows isn't given, it's the integer closest to the one that makes the grid square -/
theorem grid_square (gw W H : Nat) (hW : 1 ≤ W) : ∃ g, sampleImager gw none W H = some g ∧ |(g.length : ℚ) - (gw : ℚ) * H / W| ≤ 1 / 2 ∧ ∀ row ∈ g, row.length = gw := by
  have e : sampleImager gw none W H = sampleImager gw (some (Name.roundHalfEven ((H : ℚ) / (W : ℚ) * (gw : ℚ))).toNat) W H := by
    unfold sampleImager gridHeight
    rw [if_neg (by omega)]
  obtain ⟨g, hg, hl, hr, -⟩ := grid_points gw (Name.roundHalfEven ((H : ℚ) / (W : ℚ) * (gw : ℚ))).toNat W H
  refine ⟨g, by rw [e, hg], ?_, hr⟩
  have h0 : (0 : ℚ) ≤ (H : ℚ) / (W : ℚ) * (gw : ℚ) := by positivity
  have h1 := Name.round_err ((H : ℚ) / (W : ℚ) * (gw : ℚ))
  have h2 := Name.round_nonneg _ h0
  rw [hl]
  have h3 : (((Name.roundHalfEven ((H : ℚ) / (W : ℚ) * (gw : ℚ))).toNat : Nat) : ℚ) = ((Name.roundHalfEven ((H : ℚ) / (W : ℚ) * (gw : ℚ)) : Int) : ℚ) := by
    rw [← Int.cast_natCast, Int.toNat_of_nonneg h2]
  rw [h3, abs_sub_comm]
  have : (gw : ℚ) * H / W = (H : ℚ) / (W : ℚ) * (gw : ℚ) := by ring
  rw [this]
  exact h1

/-- a case: a 60-wide grid over a 6000x4000 image: 40 rows -/
example : ∃ g, sampleImager 60 none 6000 4000 = some g ∧ g.length = 40 ∧ gridPoint g 39 59 = some ⟨(6000 : Nat) - 1, (4000 : Nat) - 1⟩ := by
  have e : sampleImager 60 none 6000 4000 = sampleImager 60 (some 40) 6000 4000 := by
    unfold sampleImager gridHeight
    rw [if_neg (by norm_num)]
    have : Name.roundHalfEven (((4000 : Nat) : ℚ) / ((6000 : Nat) : ℚ) * ((60 : Nat) : ℚ)) = 40 := by
      have : ((4000 : Nat) : ℚ) / ((6000 : Nat) : ℚ) * ((60 : Nat) : ℚ) = ((40 : Int) : ℚ) := by norm_num
      rw [this, Name.round_int]
    rw [this]
    rfl
  obtain ⟨g, hg, hl, -, -⟩ := grid_points 60 40 6000 4000
  exact ⟨g, by rw [e, hg], hl, (grid_corners_partial 60 40 6000 4000 (by norm_num) (by norm_num) g hg).2⟩

end Mrcal.ModelDiff
