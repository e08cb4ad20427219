import Mathlib.Algebra.Order.Archimedean.Real.Basic
import Mathlib.Algebra.Order.Floor.Ring
import Mathlib.Analysis.SpecialFunctions.Log.Base
import Mathlib.Analysis.SpecialFunctions.Pow.Real
/-
show_projection_uncertainty_vs_distance() with _observed_hypothesis_points_and_boards_at_calibration_time() mrcal/visualization.py:1909-2156, the contours in _options_heatmap_with_contours() mrcal/visualization.py:776-789,
and mrcal-show-projection-uncertainty.

What is called is given: mrcal.unproject(), mrcal.projection_uncertainty(), mrcal.hypothesis_board_corner_positions(), mrcal.transform_point_rt(). Arithmetic is exact. Plot options aren't modelled.
-/
namespace Mrcal.VsDistance

structure P3 where
  x : ℝ
  y : ℝ
  z : ℝ

/-- nps.mag() -/
noncomputable def mag (p : P3) : ℝ := Real.sqrt (p.x * p.x + p.y * p.y + p.z * p.z)

def scale (k : ℝ) (p : P3) : P3 := ⟨k * p.x, k * p.y, k * p.z⟩

/-- one row of observations_point, indices_point_camintrinsics_camextrinsics -/
structure PointObs where
  ipoint : Nat
  icami : Int
  icame : Int
  w : ℝ

/-- the parts of optimization_inputs that are used. `corners`: the inliers returned by hypothesis_board_corner_positions(); `none`: an exception. `rt`: rt_cam_ref, as the functions that transform a point; `none`: None -/
structure Inputs where
  icam : Int
  corners : Option (List P3)
  points : Option (List P3)
  obs : List PointObs
  rt : Option (List (P3 → P3))

/-- `l[i]` of numpy. `none`: an IndexError -/
def npIndex {α : Type} (l : List α) (i : Int) : Option α :=
  if 0 ≤ i then l[i.toNat]? else if -(l.length : Int) ≤ i then l[(l.length + i).toNat]? else none

open Classical in
/-- the inlier observations of this camera: visualization.py:1926-1937 -/
noncomputable def selected (s : Inputs) : List PointObs := (s.obs.filter fun o => decide (o.icami = s.icam)).filter fun o => decide (0 < o.w)

/-- one of the points, in the coordinates of the camera: visualization.py:1939-1949. The first lookup checks its index, but its result isn't used -/
def pcamPoint (rt : List (P3 → P3)) (points : List P3) (o : PointObs) : Option P3 :=
  let icame := if o.icame < 0 then -1 else o.icame
  (npIndex (id :: rt) (icame + 1)).bind fun _ =>
    (npIndex rt icame).bind fun f =>
      points[o.ipoint]?.map f

/-- `_observed_hypothesis_points_and_boards_at_calibration_time` visualization.py:1909-1958. `none`: an exception -/
noncomputable def observed (s : Inputs) : Option (List P3) :=
  let c := s.corners.getD []
  match s.points with
  | none => some c
  | some points => s.rt.bind fun rt => ((selected s).mapM (pcamPoint rt points)).map fun p => c ++ p

/-- the argument `where` -/
inductive Where
  | name (s : String)
  | pixel (x y : ℝ)

/-- the camera. `uncertainty method isotropic pixelUncertainty p`: mrcal.projection_uncertainty() -/
structure Env where
  W : ℝ
  H : ℝ
  unproject : ℝ → ℝ → P3
  uncertainty : String → Bool → Option ℝ → P3 → ℝ

/-- np.mean(axis=-2) -/
noncomputable def mean (l : List P3) : P3 := scale (1 / l.length) ⟨(l.map P3.x).sum, (l.map P3.y).sum, (l.map P3.z).sum⟩

/-- `vcam` visualization.py:2085-2106. `none`: an exception -/
noncomputable def ray (env : Env) (p : List P3) : Where → Option P3
  | .name s =>
    if s = "center" then some (env.unproject ((env.W - 1) / 2) ((env.H - 1) / 2))
    else if s = "centroid" then some (scale (1 / mag (mean p)) (mean p))
    else none
  | .pixel x y => some (env.unproject x y)

/-- np.min(). Only used on lists that aren't empty -/
noncomputable def minOf (l : List ℝ) : ℝ := l.foldl min (l.headD 0)
/-- np.max() -/
noncomputable def maxOf (l : List ℝ) : ℝ := l.foldl max (l.headD 0)

/-- `distances[i]` visualization.py:2117-2119 -/
noncomputable def distance (dmin dmax : ℝ) (i : Nat) : ℝ := (10 : ℝ) ^ (Real.logb 10 dmin + i * (Real.logb 10 dmax - Real.logb 10 dmin) / 79)

/-- the methods that are accepted here: visualization.py:2074-2077 -/
def knownMethods : List String := ["mean-pcam", "cross-reprojection-rrp-Jfp"]

/-- the arguments, with their defaults: visualization.py:1959-1966 -/
structure Args where
  where' : Where := .name "centroid"
  pixelUncertainty : Option ℝ := none
  isotropic : Bool := false
  method : String := "cross-reprojection-ccp"
  distanceMin : Option ℝ := none
  distanceMax : Option ℝ := none

/-- `show_projection_uncertainty_vs_distance` visualization.py:1959-2156: the curve: distances, uncertainties. `none`: an exception -/
noncomputable def vsDistance (env : Env) (s : Inputs) (a : Args) : Option (List (ℝ × ℝ)) :=
  if a.method ∉ knownMethods then none
  else
    (observed s).bind fun p =>
      if p.length = 0 then none
      else
        (ray env p a.where').map fun v =>
          let dmin := a.distanceMin.getD (minOf (p.map mag) / 5)
          let dmax := a.distanceMax.getD (maxOf (p.map mag) * 10)
          (List.range 80).map fun i => (distance dmin dmax i, env.uncertainty a.method a.isotropic a.pixelUncertainty (scale (distance dmin dmax i) v))

/-- the options of mrcal-show-projection-uncertainty that matter with --vs-distance-at. The X,Y string is already parsed: mrcal-show-projection-uncertainty:175-184 -/
structure Options where
  vsDistanceAt : Where
  distance : Option ℝ := none
  observations : Bool := false
  isotropic : Bool := false
  method : String := "cross-reprojection-ccp"
  pixelUncertainty : Option ℝ := none

/-- what the tool does -/
inductive Outcome
  | exit (status : Nat)
  | exception
  | plot (l : List (ℝ × ℝ))

/-- mrcal-show-projection-uncertainty --vs-distance-at: lines 167-173, 201-218. The model: `none`: it has no optimization_inputs. Lines 90-92: argparse exits with status 2 if the method isn't one of three -/
noncomputable def tool (env : Env) (model : Option Inputs) (o : Options) : Outcome :=
  if o.method ∉ ["cross-reprojection-ccp", "mean-pcam", "cross-reprojection-rrp-Jfp"] then .exit 2
  else if o.distance.isSome || o.observations then .exit 1
  else match model with
  | none => .exit 0
  | some s =>
    match vsDistance env s { where' := o.vsDistanceAt, isotropic := o.isotropic, method := o.method } with
    | none => .exception
    | some l => .plot l

/-! ### contours -/

open Classical in
/-- `np.argmin(np.abs(m * base10_floor - increment))`, as the value of m: visualization.py:787-789 -/
noncomputable def bestMultiple (base increment : ℝ) : ℝ :=
  [2, 5, 10].foldl (fun best m => if abs (m * base - increment) < abs (best * base - increment) then m else best) 1

/-- `contour_increment` visualization.py:776-789 -/
noncomputable def contourIncrement (given : Option ℝ) (cmin cmax : ℝ) : ℝ :=
  match given with
  | some c => c
  | none =>
    let increment := (cmax - cmin) / 10
    let base := (10 : ℝ) ^ (⌊Real.logb 10 increment⌋ : ℤ)
    (-bestMultiple base increment) * base

end Mrcal.VsDistance
