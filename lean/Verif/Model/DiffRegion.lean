import Verif.Model.Polyline
import Verif.Model.Pose
/-
The valid-intrinsics region of the second camera in a plot of a projection difference: `show_projection_diff()` visualization.py:1377-1412
-/
namespace Mrcal.DiffRegion
open Mrcal Mrcal.Cam Mrcal.Pose

/-- `distance`: None, a number, or a list (or a one-dimensional array) of numbers. Arrays with more dimensions aren't modelled -/
inductive Distance
  | none
  | one (d : ℝ)
  | list (l : List ℝ)

/-- `v1 *= distance`, or `v1 *= distance[0]` if that fails: visualization.py:1395-1397. v1 has shape (N,3), so numpy broadcasts lists of length 1 and 3: a list of length 3 scales x,y,z separately. Other lengths raise, and nothing has been scaled then.
`none`: an exception -/
def scaled : Distance → P3 → Option P3
  | .none, v => some v
  | .one d, v => some ⟨v.x * d, v.y * d, v.z * d⟩
  | .list [a, b, c], v => some ⟨v.x * a, v.y * b, v.z * c⟩
  | .list (a :: _), v => some ⟨v.x * a, v.y * a, v.z * a⟩
  | .list [], _ => Option.none

/-- where each pixel of the second camera is drawn: visualization.py:1391-1401. `unproject1` has normalize=True -/
noncomputable def moved (unproject1 : P2 → P3) (project0 : P3 → P2) (Rt10 : Rt) (distance : Distance) (q : P2) : Option P2 :=
  (scaled distance (unproject1 q)).map fun v => project0 (transformPointRt (invertRt Rt10) v false)

/-- the region of the second camera that's drawn: visualization.py:1377-1412. `asked`: the argument valid_intrinsics_region. `region`: that of models[1]. The outer `none`: an exception. The inner `none`: nothing is drawn. An array of shape (2,), from
`_densify_polyline()`, is one: it's indexed with [:,0]. No vertices: the scaling of an empty array with an empty list isn't modelled -/
noncomputable def region1 (Nmodels : Nat) (asked intrinsics_only : Bool) (unproject1 : P2 → P3) (project0 : P3 → P2) (Rt10 : Rt) (distance : Distance) (region : Option (List P2)) : Option (Option (List P2)) :=
  if !asked then some none
  else if Nmodels ≠ 2 then some none
  else
    match region with
    | none => some none
    | some r =>
      if intrinsics_only then some (some r)
      else
        match Polyline.densify 50 (some r) with
        | .none => none
        | .flat _ => none
        | .rows l => (l.mapM (moved unproject1 project0 Rt10 distance)).map some

end Mrcal.DiffRegion
