import Verif.Model.Seed
import Verif.Model.Cameras
/-
The pose of the chessboard in respect to a camera, from one image: mrcal/calibration.py:508-781; and all of `seed_stereographic()` mrcal/calibration.py:1398-1608.
Arithmetic is exact. cv2.solvePnP() isn't modelled: it is given. NaN and infinity are `none`.
-/
namespace Mrcal.Pnp
open Mrcal.Pose Mrcal.Cam Mrcal.Seed

/-- a lens model that has a core, and its intrinsics. `unproject`: mrcal.unproject(); none if the result isn't finite -/
structure PnpLens where
  core : Core
  unproject : P2 → Option P3

/-- cv2.solvePnP(): the points, where they're observed, the camera matrix, the initial estimate. It has no distortion. none: it reports a failure, or raises an exception -/
abbrev SolvePnP := List P3 → List P2 → Core → Option RtV → Option RtV

/-- x,y,weight -/
structure Seen where
  q : P2
  weight : ℝ

/-- what `solvepnp__try_focal_scale()` does: it returns, or raises one of the three exceptions -/
inductive Res where
  | ok (T : Rt)
  | fail
  | negz
  | toofew

open Classical in
/-- the pinhole observation calibration.py:546-556: none if v or it isn't finite -/
noncomputable def toPinhole (lens : PnpLens) (scale : ℝ) (q : P2) : Option P2 :=
  let k := lens.core
  match lens.unproject ⟨(q.x - k.cx) / scale + k.cx, (q.y - k.cy) / scale + k.cy⟩ with
  | none => none
  | some v =>
    if v.z = 0 then none
    else
      let q := (pinhole k v).q
      some ⟨q.x * scale + k.cx * (1 - scale), q.y * scale + k.cy * (1 - scale)⟩

open Classical in
/-- the rows that are used calibration.py:559-573: (point in the chessboard coordinates, pinhole observation) -/
noncomputable def rows (lens : PnpLens) (scale : ℝ) (points : List P3) (obs : List Seen) : List (P3 × P2) :=
  (List.zip points obs).filterMap fun po =>
    if 0 < po.2.weight then (toPinhole lens scale po.2.q).map fun q => (po.1, q) else none

open Classical in
/-- `solvepnp__try_focal_scale()` calibration.py:535-606 -/
noncomputable def tryScale (solve : SolvePnP) (lens : PnpLens) (points : List P3) (obs : List Seen) (scale : ℝ) : Res :=
  let k := lens.core
  let camera : Core := ⟨k.fx * scale, k.fy * scale, k.cx, k.cy⟩
  let r := rows lens scale points obs
  if r.length < 6 then .toofew
  else
    match solve (r.map Prod.fst) (r.map Prod.snd) camera none with
    | none => .fail
    | some rt =>
      if rt.t.z ≤ 0 then
        match solve (r.map Prod.fst) (r.map Prod.snd) camera (some ⟨rt.r, negP rt.t⟩) with
        | none => .fail
        | some rt => if rt.t.z ≤ 0 then .negz else .ok (Rt_from_rt rt)
      else .ok (Rt_from_rt rt)

def Res.value : Res → Option Rt
  | .ok T => some T
  | _ => none

/-- `_estimate_camera_pose_from_fixed_point_observations()` calibration.py:508-620 -/
noncomputable def fixedPoints (solve : SolvePnP) (lens : PnpLens) (points : List P3) (obs : List Seen) : Option Rt :=
  match tryScale solve lens points obs 1 with
  | .ok T => some T
  | .fail => none
  | .negz => (tryScale solve lens points obs 1.5).value
  | .toofew => (tryScale solve lens points obs 0.7).value

/-- one row of indices_frame_camera, and of observations: the corners, row by row -/
structure View where
  frame : Nat
  cam : Nat
  seen : List Seen

/-- `estimate_monocular_calobject_poses_Rt_tocam()` calibration.py:622-781. The lens models have a core. The observations have W*H corners -/
noncomputable def monocular (solve : SolvePnP) (lenses : List PnpLens) (W H : Nat) (spacing : ℝ) (views : List View) : Option (List Rt) :=
  views.mapM fun v =>
    match lenses[v.cam]? with
    | none => none
    | some lens => fixedPoints solve lens (board W H spacing) v.seen

/-- the focal lengths that are used calibration.py:1535-1549. `scalar`: not an iterable. If it's an iterable, it's a list or a tuple: for an array of length 1 `*` would multiply instead -/
def focals (Ncameras : Nat) (scalar : Bool) (focal : List ℝ) : Option (List ℝ) :=
  if scalar ∨ focal.length = 1 then some (List.replicate Ncameras focal).flatten
  else if focal.length = Ncameras then some focal
  else none

/-- the stereographic lens model calibration.py:1561-1566 -/
noncomputable def stereoCore (focal : ℝ) (size : Nat × Nat) : Core := ⟨focal, focal, ((size.1 : ℝ) - 1) / 2, ((size.2 : ℝ) - 1) / 2⟩
noncomputable def stereoLens (k : Core) : PnpLens := ⟨k, fun q => some (unstereographic k q).v⟩

/-- `seed_stereographic()` calibration.py:1398-1608: (intrinsics_data, rt_cam_ref, rt_ref_frame) -/
noncomputable def seedStereographic (env : Env) (solve : SolvePnP) (imagersizes : List (Nat × Nat)) (scalar : Bool) (focal : List ℝ) (W H : Nat) (spacing : ℝ) (views : List View) :
    Option (List Core × List RtV × List RtV) :=
  match focals imagersizes.length scalar focal with
  | none => none
  | some fs =>
    let cores := List.zipWith stereoCore fs imagersizes
    match monocular solve (cores.map stereoLens) W H spacing views with
    | none => none
    | some poses => (seedPoses env W H spacing (List.zipWith (fun v T => ⟨v.frame, v.cam, T⟩) views poses)).map fun r => (cores, r.1, r.2)

end Mrcal.Pnp
