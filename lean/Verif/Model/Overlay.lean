import Verif.Model.Pnp
/-
The observations that are drawn on top of a plot of an imager: `_append_observation_visualizations()` visualization.py:966-1036
-/
namespace Mrcal.Overlay
open Mrcal Mrcal.Pnp

/-- one observation of a chessboard: icam_intrinsics, and the rows of corners (x,y,weight) -/
structure Board where
  icam : Int
  rows : List (List Seen)

/-- one observation of a point -/
structure Point where
  icam : Int
  seen : Seen

/-- what's used of the optimization inputs. `none`: None, or not there at all. Triangulated points are in separate arrays: observations of these are pixels here -/
structure Inputs where
  boards : Option (List Board)
  points : Option (List Point)
  triangulated : Option (List Point)

/-- one curve: where the points are drawn, the style, the legend, and whether there's a third coordinate, of 0 -/
structure Curve where
  pts : List P2
  color : String
  style : String
  legend : String
  flat : Bool

/-- the corners that a camera sees: visualization.py:980-984. `nps.clump(..., n=3)` makes one list of all the corners, row by row -/
def corners (icam : Int) (b : List Board) : List Seen := (b.filter fun o => decide (o.icam = icam)).flatMap fun o => o.rows.flatten

/-- the points that a camera sees: visualization.py:993-997 -/
def points (icam : Int) (p : List Point) : List Seen := (p.filter fun o => decide (o.icam = icam)).map Point.seen

/-- `l[mask,:2]`, `l[~mask,:2]` with mask = weight > 0: visualization.py:985-988, 998-1001 -/
noncomputable def inliers (yes : Bool) (l : List Seen) : List P2 := by
  classical
  exact (l.filter fun s => decide (0 < s.weight) == yes).map Seen.q

/-- `_with` visualization.py:1025-1030, without the color, which is separate here -/
def style (pointtype : Int) (flat : Bool) : String := (if pointtype < 0 then "dots" else "points pt " ++ toString pointtype) ++ (if flat then "" else " nocontour")

/-- one iteration of the loop: visualization.py:1016-1036. `reproject` maps each pixel on its own -/
def curve (pre : String) (pointtype : Int) (flat : Bool) (reproject : Option (P2 → P2)) (q : Option (List P2)) (color what : String) : List Curve :=
  match q with
  | none => []
  | some [] => []
  | some q => [⟨match reproject with | none => q | some f => q.map f, color, style pointtype flat, pre ++ what, flat⟩]

/-- `_append_observation_visualizations()` visualization.py:966-1036. `none`: an exception: the model has no optimization inputs. The icam is from `model.icam_intrinsics()` -/
noncomputable def overlay (data : List Curve) (inputs : Option Inputs) (icam : Int) (pre : String) (pointtype : Int) (flat : Bool) (reproject : Option (P2 → P2)) : Option (List Curve) :=
  match inputs with
  | none => none
  | some inp =>
    let b := inp.boards.map (corners icam)
    let p := inp.points.map (points icam)
    let c := curve pre pointtype flat reproject
    some (data ++ (c (b.map (inliers true)) "black" "board inliers" ++ c (p.map (inliers true)) "black" "point inliers" ++ c (b.map (inliers false)) "red" "board outliers" ++
      c (p.map (inliers false)) "red" "point outliers"))

end Mrcal.Overlay
