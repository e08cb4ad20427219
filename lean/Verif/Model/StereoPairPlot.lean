import Verif.Model.Polyline
import Verif.Model.ModelDiff
/-
The plot of the difference of two stereo pairs: `show_stereo_pair_diff()` visualization.py:1431-1665
-/
namespace Mrcal.StereoPairPlot
open Mrcal Mrcal.Cam Mrcal.Pose Mrcal.ImageTransform Mrcal.ModelDiff

/-- a valid-intrinsics region that's drawn. The legend says which pair and camera this is: visualization.py:1642, 1647. A point may be NaN: `none` -/
structure Curve where
  pair : Nat
  cam : Nat
  pts : List (Option P2)

/-- one of the cameras: visualization.py:1630-1647. `m`: the pair. The outer `none`: an exception; an array of shape (2,) from `_densify_polyline()` is one. The inner `none`: there's no region -/
noncomputable def regionOf (solve : Solver) (prev : NanP3) (distance : Option ℝ) (m : Model × Model) (pair cam : Nat) (region : Option (List P2)) : Option (Option Curve) :=
  match region with
  | none => some none
  | some r =>
    if cam = 1 then
      match Polyline.densify 50 (some r) with
      | .none => none
      | .flat _ => none
      | .rows l => (l.mapM (reproject solve prev distance m true)).map fun pts => some ⟨pair, cam, pts⟩
    else some (some ⟨pair, cam, r.map some⟩)

/-- all of the regions: visualization.py:1627-1647. `none`: an exception -/
noncomputable def regions (solve : Solver) (prev : NanP3) (distance : Option ℝ) (m0 m1 : Model × Model) (asked : Bool) (region : Nat → Nat → Option (List P2)) : Option (List Curve) :=
  if asked then
    (([(0, 0), (0, 1), (1, 0), (1, 1)] : List (Nat × Nat)).mapM fun x =>
      regionOf solve prev distance (if x.1 = 0 then m0 else m1) x.1 x.2 (region x.1 x.2)).map fun l => l.filterMap id
  else some []

/-- an arrow of the vector field; NaN is `none` -/
structure Arrow where
  start : P2
  delta : Option P2
  color : ℝ

/-- the colors: visualization.py:1590-1594. Infinite values, which are replaced too, are not in this model -/
noncomputable def colors (difflen : List (Option ℝ)) : List ℝ := difflen.map fun d => d.getD 1e6

/-- the vector field: visualization.py:1582-1586, 1608-1612 -/
noncomputable def arrows (vectorscale : ℝ) (difflen : List (Option ℝ)) (diff : List (Option P2)) (q0 : List (List P2)) : List Arrow :=
  (q0.flatten.zip (diff.zip (colors difflen))).map fun x => ⟨x.1, x.2.1.map fun d => ⟨d.x * vectorscale, d.y * vectorscale⟩, x.2.2⟩

end Mrcal.StereoPairPlot
