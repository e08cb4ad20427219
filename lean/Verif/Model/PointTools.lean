import Verif.Model.ImageTransform
import Verif.Model.LensName
/-
mrcal-reproject-points, mrcal-report-fov; is_within_valid_intrinsics_region() and mrcal-is-within-valid-intrinsics-region. Arithmetic is exact; the numbers aren't rounded when they're printed.
-/
namespace Mrcal.PointTools
open Mrcal.Cam Mrcal.Pose Mrcal.ImageTransform

/-! ### mrcal-reproject-points -/

/-- `nps.atleast_dims(np.genfromtxt(sys.stdin), -2)` mrcal-reproject-points:84. The lines without comments, as numbers; fields that aren't numbers (NaN) aren't modelled. genfromtxt() squeezes the array: one line, or
one column, makes a one-dimensional array. `none`: the lines have different numbers of columns -/
def genfromtxt (lines : List (List ℝ)) : Option (List (List ℝ)) :=
  match lines with
  | [] => some [[]]
  | l :: ls =>
    if ls.all (fun r => r.length == l.length) then
      if l.length = 1 then some [(l :: ls).flatten] else some (l :: ls)
    else none

/-- a row of the array as a pixel. `none`: `unproject()` raises an exception: the rows must have 2 elements -/
def pixel : List ℝ → Option P2
  | [x, y] => some ⟨x, y⟩
  | _ => none

/-- what's written: is the warning given; the pixels. `none` is NaN -/
structure Points where
  warned : Bool
  rows : List (Option P2)

open Classical in
/-- mrcal-reproject-points:80-100. `src`, `dst` are model-from, model-to. `none`: an exception. `project()` of the zero vector (NaN) isn't modelled -/
noncomputable def reprojectPoints (solve : Solver) (src dst : Model) (intrinsicsOnly : Bool) (lines : List (List ℝ)) : Option Points :=
  (genfromtxt lines).bind fun rows =>
  (rows.mapM pixel).bind fun qs =>
  (qs.mapM (unproject1 src solve)).bind fun vs =>
  let T := RtToFrom src dst
  some { warned := !intrinsicsOnly && decide (T.t.x * T.t.x + T.t.y * T.t.y + T.t.z * T.t.z > 1e-6)
         rows := vs.map fun v => v.map fun v => project1 dst (if intrinsicsOnly then v else Pose.mulVec T.R v) }

/-! ### mrcal-report-fov -/

/-- the angle off the optical axis, in degrees: mrcal-report-fov:87-88 -/
noncomputable def angle (v : P3) : ℝ := 180 / Real.pi * atan2 (Real.sqrt (v.x * v.x + v.y * v.y)) v.z

/-- `th_from_q()` mrcal-report-fov:80-88. The vectors that aren't finite are dropped. `none`: an exception -/
noncomputable def thFromQ (solve : Solver) (m : Model) (q : List P2) : Option (List ℝ) :=
  (q.mapM (unproject1 m solve)).map fun vs => (vs.filterMap id).map angle

/-- what's printed after "Mean FOV": "undefined", "nandegrees", or a number -/
inductive Shown where
  | undefined
  | nan
  | degrees (x : ℝ)

/-- `2.*np.mean(th)`: the mean of nothing is NaN -/
noncomputable def twiceMean : List ℝ → Shown
  | [] => .nan
  | l => .degrees (2 * (l.sum / l.length))

structure Fov where
  centersx : List ℝ
  centersy : List ℝ
  corners : List ℝ
  vertical : Shown
  horizontal : Shown
  corner : Shown

/-- mrcal-report-fov:70-119, one model. All lens models have a core: the center is (cx,cy). The tests in lines 112, 115, 118 are all of `th_centersx` -/
noncomputable def reportFov (solve : Solver) (m : Model) : Option Fov :=
  let cx := m.intr 2
  let cy := m.intr 3
  let x0 : ℝ := 0
  let x1 : ℝ := (m.W : ℝ) - 1
  let y0 : ℝ := 0
  let y1 : ℝ := (m.H : ℝ) - 1
  (thFromQ solve m [⟨x0, y0⟩, ⟨x0, y1⟩, ⟨x1, y0⟩, ⟨x1, y1⟩]).bind fun corners =>
  (thFromQ solve m [⟨cx, y0⟩, ⟨cx, y1⟩]).bind fun centersx =>
  (thFromQ solve m [⟨x0, cy⟩, ⟨x1, cy⟩]).map fun centersy =>
  { centersx, centersy, corners
    vertical := if centersx.isEmpty then .undefined else twiceMean centersx
    horizontal := if centersx.isEmpty then .undefined else twiceMean centersy
    corner := if centersx.isEmpty then .undefined else twiceMean corners }

/-! ### the valid-intrinsics region -/

/-- `is_within_valid_intrinsics_region()` model_analysis.py:2106-2149. `contains` is shapely's `Polygon(r).contains(Point(q))`. The result of the function is None if there's no region -/
def isWithin (contains : List P2 → P2 → Bool) (region : Option (List P2)) (q : List P2) : Option (List Bool) :=
  region.map fun r => q.map (contains r)

/-- `'%06d' % n` -/
def pad6 (n : Nat) : List Char := List.replicate (6 - (Name.printNat n).length) '0' ++ Name.printNat n

/-- the keys that the two tables are joined by: mrcal-is-within-valid-intrinsics-region:119-124, 133. The records are numbered from 1. `vnl-filter` and `vnl-join` aren't modelled -/
def keys (N : Nat) : List (List Char) := (List.range N).map fun i => pad6 (i + 1)

end Mrcal.PointTools
