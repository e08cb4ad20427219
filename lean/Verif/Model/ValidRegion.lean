import Verif.Model.ModelDiff
import Verif.Model.CameraModel
/-
The valid-intrinsics region: how mrcal-calibrate-cameras computes it (mrcal/calibration.py:1611-1866, mrcal-calibrate-cameras:882-906), the statistics of the residuals in the cells of the imager that it is based on, and what
plots those (mrcal/visualization.py:3160-3220, 3680-3704, 4090-4194).

What these functions call is given: mrcal.unproject(), mrcal.projection_uncertainty(), cv2.findContours(). Numbers are real; those of the final contour are rational. The residuals are those of the boards: the beginning
of the measurement vector.
-/
namespace Mrcal.Region

open Mrcal

/-- a corner in observations_board: its pixel, its weight -/
structure Corner where
  q : P2
  weight : ℝ

/-- an observation of a board: the camera, the corners. All boards have the same number of corners -/
structure Board where
  icam : Int
  corners : List Corner

/-- what the functions here use from the model: its size, optimization_inputs, icam_intrinsics(). `x`: the measurement vector of optimizer_callback() -/
structure Model where
  W : Nat
  H : Nat
  splined : Bool
  icam : Int
  boards : List Board
  x : List ℝ

/-- the functions that are called -/
structure Env where
  /-- mrcal.unproject(..., normalize = True). `none`: NaN -/
  unproject : P2 → Option P3
  /-- mrcal.projection_uncertainty(..., what = 'worstdirection-stdev'): atinfinity, the point. `none`: NaN or infinite -/
  uncertainty : Bool → P3 → Option ℝ
  /-- cv2.findContours(mask, cv2.RETR_EXTERNAL, cv2.CHAIN_APPROX_SIMPLE)[-2]: the width and height of the mask, the mask at x, y. The vertices are x, y -/
  findContours : Nat → Nat → (Nat → Nat → Bool) → List (List (Nat × Nat))

/-! ### the cells -/

/-- sample_imager() utils.py:317-323: the pixel of grid point i, j. Used only if there are at least two grid points in each direction -/
noncomputable def center (m : Model) (gw gh i j : Nat) : P2 :=
  ⟨((m.W : ℝ) - 1) * i / ((gw : ℝ) - 1), ((m.H : ℝ) - 1) * j / ((gh : ℝ) - 1)⟩

/-- `rcell` calibration.py:1802-1804 -/
noncomputable def rcell (m : Model) (gw gh : Nat) : P2 := ⟨((m.W : ℝ) - 1) / ((gw : ℝ) - 1) / 2, ((m.H : ℝ) - 1) / ((gh : ℝ) - 1) / 2⟩

/-- the residuals of each corner: `x` calibration.py:1838-1845. Corner number i has the elements 2*i, 2*i+1 -/
noncomputable def residual (m : Model) (i : Nat) : P2 := ⟨m.x.getD (2 * i) 0, m.x.getD (2 * i + 1) 0⟩

/-- all the corners, with the camera -/
def corners (m : Model) : List (Int × Corner) := m.boards.flatMap fun b => b.corners.map fun c => (b.icam, c)

open Classical in
/-- `obs`, `err` calibration.py:1847-1857: the inliers of this camera -/
noncomputable def selected (m : Model) : List (P2 × P2) :=
  (corners m).zipIdx.filterMap fun c => if c.1.1 ≠ m.icam ∨ c.1.2.weight ≤ 0 then none else some (c.1.2.q, residual m c.2)

open Classical in
/-- `err` calibration.py:1813-1820: the residuals in the cell, x and y together -/
noncomputable def cellErr (S : List (P2 × P2)) (c r : P2) : List ℝ :=
  (S.filter fun s => decide (|s.1.x - c.x| < r.x) && decide (|s.1.y - c.y| < r.y)).flatMap fun s => [s.2.x, s.2.y]

/-- what's reported for a cell -/
structure Stats where
  mean : ℝ
  stdev : ℝ
  count : Nat

/-- np.mean() -/
noncomputable def mean (l : List ℝ) : ℝ := l.sum / l.length
/-- np.std() -/
noncomputable def std (l : List ℝ) : ℝ := Real.sqrt (mean (l.map fun e => (e - mean l) * (e - mean l)))

/-- `stats` calibration.py:1806-1827 -/
noncomputable def stats (S : List (P2 × P2)) (c r : P2) : Stats :=
  let err := cellErr S c r
  if err.length ≤ 5 then ⟨0, 0, err.length⟩ else ⟨mean err, std err, err.length⟩

/-- `_report_regional_statistics` calibration.py:1720-1866: the size of the grid, and the statistics at i, j. `none`: an exception: the width of a cell is divided by 0 (lines 1802-1803), or there are fewer residuals than
corners (line 1845). Simplified: grids without any cells are errors also -/
noncomputable def regional (m : Model) (gw : Nat) (gh : Option Nat) : Option (Nat × Nat × (Nat → Nat → Stats)) :=
  (ModelDiff.gridHeight gw gh m.W m.H).bind fun gh =>
    if gw ≤ 1 ∨ gh ≤ 1 ∨ m.x.length < 2 * (corners m).length then none
    else some (gw, gh, fun i j => stats (selected m) (center m gw gh i j) (rcell m gw gh))

/-- `imagergrid_using` visualization.py:3160-3220: the two factors in the string. `none`: an exception -/
noncomputable def gridUsing (W H gw : Nat) (gh : Option Nat) : Option (ℝ × ℝ) :=
  (ModelDiff.gridHeight gw gh W H).bind fun gh => if gw = 1 ∨ gh = 1 then none else some (((W : ℝ) - 1) / ((gw : ℝ) - 1), ((H : ℝ) - 1) / ((gh : ℝ) - 1))

/-- the statistics that `show_residuals_regional()` shows: visualization.py:4090-4194. `x`: the cached measurement vector -/
noncomputable def showRegional (m : Model) (_x : Option (List ℝ)) (_gw : Nat) (_gh : Option Nat) : Option (Nat × Nat × (Nat → Nat → Stats)) :=
  regional m 20 none

/-! ### the region -/

/-- the arguments of `_compute_valid_intrinsics_region` -/
structure Params where
  uncertainty : ℝ
  mean : ℝ
  stdev : ℝ
  count : ℝ
  distance : ℝ

open Classical in
/-- `uncertainty` at a pixel: calibration.py:1655-1674 -/
noncomputable def uncertaintyAt (env : Env) (distance : ℝ) (q : P2) : ℝ :=
  ((env.unproject q).bind fun v => if distance ≤ 0 then env.uncertainty true v else env.uncertainty false ⟨v.x * distance, v.y * distance, v.z * distance⟩).getD 1e9

open Classical in
/-- `mask` calibration.py:1677-1684 -/
noncomputable def maskAt (env : Env) (m : Model) (p : Params) (s : Stats) (q : P2) : Bool :=
  decide (uncertaintyAt env p.distance q < p.uncertainty) &&
  (m.splined || (decide (s.mean < p.mean) && decide (s.stdev < p.stdev) && decide ((s.count : ℝ) > p.count)))

/-- the sum in the shoelace formula: `first` is the vertex after the last one -/
def shoelace (first : Nat × Nat) : List (Nat × Nat) → Int
  | [] => 0
  | [a] => (a.1 : Int) * first.2 - (first.1 : Int) * a.2
  | a :: b :: l => (a.1 : Int) * b.2 - (b.1 : Int) * a.2 + shoelace first (b :: l)

/-- cv2.contourArea(), twice that -/
def area2 : List (Nat × Nat) → Nat
  | [] => 0
  | a :: l => (shoelace a (a :: l)).natAbs

/-- `contours[np.argmax(areas)]` calibration.py:1699-1703: the first one of the largest -/
def largest (best : List (Nat × Nat)) : List (List (Nat × Nat)) → List (Nat × Nat)
  | [] => best
  | c :: l => if area2 c > area2 best then largest c l else largest best l

/-- a vertex of the grid, as a pixel: calibration.py:1713-1717 -/
def toPixel (W H gw gh : Nat) (v : ℚ × ℚ) : Int × Int :=
  (Name.roundHalfEven (v.1 * (((W : ℚ) - 1) / ((gw : ℚ) - 1))), Name.roundHalfEven (v.2 * (((H : ℚ) - 1) / ((gh : ℚ) - 1))))

/-- the contour from the mask: calibration.py:1694-1717 -/
def contourOf (env : Env) (W H gw gh : Nat) (mask : Nat → Nat → Bool) : List (Int × Int) :=
  match env.findContours gw gh mask with
  | [] => []
  | c :: l =>
    let contour := CamModel.closeContour ((largest c l).map fun v => ((v.1 : ℚ), (v.2 : ℚ)))
    if contour.length < 4 then [] else contour.map (toPixel W H gw gh)

/-- `_compute_valid_intrinsics_region` calibration.py:1611-1717. `none`: an exception -/
noncomputable def computeRegion (env : Env) (m : Model) (p : Params) (gw : Nat := 30) (gh : Option Nat := none) : Option (List (Int × Int)) :=
  (regional m gw gh).map fun r => contourOf env m.W m.H r.1 r.2.1 fun i j => maskAt env m p (r.2.2 i j) (center m r.1 r.2.1 i j)

/-- mrcal-calibrate-cameras:882-906: the region of a camera, from the 5 parameters; `observed` is observed_pixel_uncertainty. `none`: the model has no region -/
noncomputable def toolRegion (env : Env) (m : Model) (a : ℝ × ℝ × ℝ × ℝ × ℝ) (observed : ℝ) : Option (List (Int × Int)) :=
  computeRegion env m ⟨a.1 * observed, a.2.1, a.2.2.1 * observed, a.2.2.2.1, a.2.2.2.2⟩

/-! ### the region in the plots of the residuals -/

/-- `_get_show_residuals_data_onecam` visualization.py:3680-3704: the region that's plotted. `none`: an exception. `region` is model.valid_intrinsics_region(). `valid_region.size` of None: an AttributeError. The truth of
`valid_region == 0`: this is an array; if it has several elements that's a ValueError. If it has none, older versions of numpy say that it's false -/
def plotRegion (overlay : Bool) (region : Option (List (ℚ × ℚ))) : Option (Option (List (ℚ × ℚ))) :=
  if overlay then
    match region with
    | none => none
    | some [] => some (some [])
    | some _ => none
  else some none

end Mrcal.Region
