import Verif.Model.Pnp
/-
The pose of a camera from observations of fixed points: `_estimate_camera_pose_from_point_observations()` calibration.py:783-922. The solve with the points of this camera is in `Pnp`.
-/
namespace Mrcal.PointPose
open Mrcal Mrcal.Pnp

/-- one row of indices_point_camintrinsics_camextrinsics, and of observations_point. Negative ipoint, which python would count from the end, isn't modelled -/
structure Obs where
  ipoint : Nat
  cami : Int
  came : Int
  seen : Seen

/-- a lens model: `none` if it has no core -/
abbrev AnyLens := Option PnpLens

/-- `l[i]` of a list in python: an index of -1 is the last element -/
def pyGet {β : Type} (l : List β) (i : Int) : Option β := if 0 ≤ i then l[i.toNat]? else if -(l.length : Int) ≤ i then l[(l.length + i).toNat]? else none

/-- `_estimate_camera_pose_from_point_observations()` calibration.py:888-922. `none`: an exception. `indices_came[0]` is one if there are no observations -/
noncomputable def pointPose (solve : SolvePnP) (rows : List Obs) (lenses : List AnyLens) (points : List P3) (icam : Int) : Option Rt :=
  match rows with
  | [] => none
  | o0 :: _ =>
    if rows.any fun o => decide (o.came ≠ o0.came) then none
    else
      let sel := rows.filter fun o => decide (o.cami = icam)
      if sel.length < 4 then none
      else if lenses.length ≠ 1 then none
      else if lenses.any fun l => l.isNone then none
      else
        match pyGet lenses icam, sel.mapM fun o => points[o.ipoint]? with
        | some (some lens), some pts => fixedPoints solve lens pts (sel.map Obs.seen)
        | _, _ => none

end Mrcal.PointPose
