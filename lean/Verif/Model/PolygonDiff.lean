import Mathlib.Analysis.Real.Sqrt
/-
polygon_difference() mrcal/utils.py:648-746.

shapely (version 1: in version 2 collections don't have a len()) is a parameter: what it returns is described by the hypotheses of the theorems.
-/
namespace Mrcal.Polygon

abbrev Pt := ℝ × ℝ

/-- what Polygon.difference() returns: one polygon, a collection (MultiPolygon, GeometryCollection) of polygons and other things, or something else -/
inductive Diff (Poly : Type)
  | one (p : Poly)
  | many (l : List (Option Poly))
  | other

/-- shapely: Polygon.exterior.coords, Polygon.interiors[i].coords, LineString.centroid, shapely.ops.split() with a straight line, Polygon(..).difference(Polygon(..)) -/
structure Shapely where
  Poly : Type
  exterior : Poly → List Pt
  holes : Poly → List (List Pt)
  centroid : List Pt → Pt
  split : Poly → Pt × Pt → List Poly
  difference : List Pt → List Pt → Diff Poly

/-- the ends of the line: utils.py:729-731. c: the centroid, v: a vertex -/
def cut (c v : Pt) : Pt × Pt :=
  let l0 := c
  let l1 := v
  ((l1.1 + 100 * (l0.1 - l1.1), l1.2 + 100 * (l0.2 - l1.2)), (l0.1 + 100 * (l1.1 - l0.1), l0.2 + 100 * (l1.2 - l0.2)))

/-- the loop: utils.py:727-739: the pieces of the first cut that works -/
def firstCut (S : Shapely) (p : S.Poly) (hole : List Pt) : Option (List S.Poly) :=
  hole.findSome? fun v =>
    let s := S.split p (cut (S.centroid hole) v)
    if s.length > 1 then some s else none

/-- `split_polygon_to_remove_holes` utils.py:709-743. The first argument bounds the depth of the recursion; `none`: that's reached (a RecursionError) -/
def splitHoles (S : Shapely) : Nat → S.Poly → Option (List (List Pt))
  | 0, _ => none
  | n + 1, p =>
    match S.holes p with
    | [] => if (S.exterior p).length = 0 then some [] else some [S.exterior p]
    | hole :: _ =>
      match firstCut S p hole with
      | none => some []
      | some s => (s.mapM (splitHoles S n)).map List.flatten

/-- `diff`, as a list: utils.py:701-707; line 710: everything must be a Polygon. `none`: an exception -/
def diffList (S : Shapely) (positive negative : List Pt) : Option (List S.Poly) :=
  match S.difference positive negative with
  | .one p => some [p]
  | .many l => l.mapM id
  | .other => none

/-- `polygon_difference` utils.py:648-746. `none`: an exception. Simplified: an element that isn't a polygon is an exception before anything is split -/
def polygonDifference (S : Shapely) (depth : Nat) (positive negative : List Pt) : Option (List (List Pt)) :=
  (diffList S positive negative).bind fun l => (l.mapM (splitHoles S depth)).map List.flatten

end Mrcal.Polygon
