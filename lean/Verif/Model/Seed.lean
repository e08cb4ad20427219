import Verif.Model.Pose
import Verif.Model.Procrustes
import Verif.Model.SensorLinks
/-
The initial estimate of a calibration: the poses of the cameras and of the chessboards, from the poses of the chessboard in respect to each camera that saw it. mrcal/calibration.py:925-1100, 1186-1395.
Arithmetic is exact. `none` is an exception. Frames and cameras are identified by numbers that aren't negative.
-/
namespace Mrcal.Seed
open Mrcal.Pose

/-- what's outside of the modelled code. `contiguous`: whether numpy says that the arrays given to align_procrustes_points_Rt01() are contiguous -/
structure Env where
  lapack : Procrustes.Lapack
  svd : Procrustes.NumpySvd
  contiguous : Bool
  heap : Links.HeapLib

/-- a row of indices_frame_camera, and the corresponding slice of calobject_poses_local_Rt_cf: to the camera from the chessboard -/
structure Obs where
  frame : Nat
  cam : Nat
  pose : Rt

/-- `clump(ref_calibration_object(W,H,spacing), n=2)` synthetic_data.py:25-233, without a warp: the corners, row by row. np.linspace(0,n-1,n) is 0,1,2,… -/
def board (W H : Nat) (s : ℝ) : List P3 :=
  (List.range H).flatMap fun (y : Nat) => (List.range W).map fun (x : Nat) => ⟨(x : ℝ) * s, (y : ℝ) * s, 0⟩

def toVec3 (p : P3) : Procrustes.Vec := ![p.x, p.y, p.z]
def cloud (l : List P3) : Nat → Procrustes.Vec := fun i => toVec3 (l.getD i ⟨0, 0, 0⟩)

/-- `align_procrustes_points_Rt01(A,B)`. If there are no points at all the arrays have the shape (0,), which isn't accepted -/
noncomputable def procrustes (env : Env) (A B : List P3) : Option Rt :=
  if A.isEmpty then none
  else
    match Procrustes.alignPointsApi env.lapack env.svd env.contiguous A.length (cloud A) (cloud B) none with
    | .exception => none
    | .array (R, t) => some ⟨⟨R 0 0, R 0 1, R 0 2, R 1 0, R 1 1, R 1 2, R 2 0, R 2 1, R 2 2⟩, ⟨t 0, t 1, t 2⟩⟩

/-! ### `_estimate_camera_poses()` -/

/-- the variables of the loop calibration.py:991-1000. `last` is none instead of -1. d0, d1 aren't used -/
structure PairSt where
  last : Option Nat
  rt0 : Option Rt
  rt1 : Option Rt
  A : List P3
  B : List P3

/-- calibration.py:1003-1008 -/
def newFrame (s : PairSt) (frame : Nat) : PairSt :=
  if some frame ≠ s.last then { s with last := some frame, rt0 := none, rt1 := none } else s

/-- one iteration calibration.py:1001-1030 -/
def pairStep (obj : List P3) (icamTo icamFrom : Nat) (s : PairSt) (o : Obs) : Option PairSt :=
  let s := newFrame s o.frame
  if o.cam = icamTo then
    if s.rt0.isSome then none else some { s with rt0 := some o.pose }
  else if o.cam = icamFrom then
    match s.rt0 with
    | none => some s
    | some r0 =>
      if s.rt1.isSome then none
      else some { s with
        rt1 := some o.pose
        A := s.A ++ obj.map fun p => transformPointRt r0 p false
        B := s.B ++ obj.map fun p => transformPointRt o.pose p false }
  else some s

/-- `compute_pairwise_Rt()` calibration.py:985-1032, once icam_from > icam_to -/
noncomputable def pairOrdered (env : Env) (obj : List P3) (obs : List Obs) (icamTo icamFrom : Nat) : Option Rt :=
  match obs.foldlM (pairStep obj icamTo icamFrom) ⟨none, none, none, [], []⟩ with
  | none => none
  | some s => procrustes env s.A s.B

/-- `compute_pairwise_Rt()` calibration.py:965-1032 -/
noncomputable def pairwise (env : Env) (obj : List P3) (obs : List Obs) (icamTo icamFrom : Nat) : Option Rt :=
  if icamFrom < icamTo then (pairOrdered env obj obs icamFrom icamTo).map invertRt
  else if icamTo = icamFrom then none
  else pairOrdered env obj obs icamTo icamFrom

/-- `camera_connectivity[i,j] += 1` in numpy.uint16 -/
def bump (M : Nat → Nat → Nat) (i j : Nat) : Nat → Nat → Nat := fun a b => if a = i ∧ b = j then (M a b + 1) % 65536 else M a b

/-- `finish_frame()` calibration.py:1044-1048. The rows i0..i1 are given as the cameras in them -/
def finishFrame : List Nat → (Nat → Nat → Nat) → Nat → Nat → Nat
  | [], M => M
  | c :: cs, M => finishFrame cs (cs.foldl (fun M d => bump (bump M c d) d c) M)

/-- the variables f_current, i_start_current (none: both are -1; the rows from i_start_current are given as the cameras in them), camera_connectivity -/
structure ConnSt where
  cur : Option (Nat × List Nat)
  M : Nat → Nat → Nat

/-- one iteration calibration.py:1053-1062 -/
def connStep (s : ConnSt) (o : Obs) : Option ConnSt :=
  match s.cur with
  | none => some ⟨some (o.frame, [o.cam]), s.M⟩
  | some (f, cs) =>
    if o.frame < f then none
    else if f < o.frame then some ⟨some (o.frame, [o.cam]), finishFrame cs s.M⟩
    else some ⟨some (f, cs ++ [o.cam]), s.M⟩

/-- `compute_connectivity_matrix()` calibration.py:1034-1064 -/
def connectivity (obs : List Obs) : Option (Nat → Nat → Nat) :=
  match obs.foldlM connStep ⟨none, fun _ _ => 0⟩ with
  | none => none
  | some s => some (match s.cur with | none => s.M | some (_, cs) => finishFrame cs s.M)

/-- `shared_frames[shared_frames<2] = 0` calibration.py:1089 -/
def dropSparse (M : Nat → Nat → Nat) : Nat → Nat → Nat := fun i j => if M i j < 2 then 0 else M i j

/-- `found_best_path_to_node()` calibration.py:1066-1079. The array Rt_0c is a function of the camera (not of camera-1) -/
noncomputable def foundPath (env : Env) (obj : List P3) (obs : List Obs) (rt0c : Nat → Option Rt) (link : Nat × Nat) : Option (Nat → Option Rt) :=
  if link.1 = 0 then some rt0c
  else
    match pairwise env obj obs link.2 link.1 with
    | none => none
    | some rtfc =>
      if link.2 = 0 then some fun c => if c = link.1 then some rtfc else rt0c c
      else
        match rt0c link.2 with
        | none => none
        | some rt0f => some fun c => if c = link.1 then some (composeRt rt0f rtfc false false) else rt0c c

/-- all the calls to found_best_path_to_node() so far -/
noncomputable def foundPaths (env : Env) (obj : List P3) (obs : List Obs) (links : List (Nat × Nat)) : Option (Nat → Option Rt) :=
  links.foldlM (foundPath env obj obs) fun _ => none

/-- calibration.py:947 -/
def numCameras (obs : List Obs) : Nat := (obs.map fun o => o.cam).foldr max 0 + 1

/-- `_estimate_camera_poses()` calibration.py:925-1100. The traversal ends after at most one call per camera (C14): this is the fuel. nps.cat() without arguments is taken to produce an empty array -/
noncomputable def estimateCameraPoses (env : Env) (W H : Nat) (spacing : ℝ) (obs : List Obs) : Option (List Rt) :=
  if obs.isEmpty then none
  else
    let N := numCameras obs
    let obj := board W H spacing
    match connectivity obs with
    | none => none
    | some M =>
      match Links.pyTraverse env.heap N (dropSparse M) (fun links => (foundPaths env obj obs links).isSome) N with
      | some (links, true) =>
        match foundPaths env obj obs links with
        | none => none
        | some rt0c => (List.range (N - 1)).mapM fun i => rt0c (i + 1)
      | _ => none

/-! ### `estimate_joint_frame_poses()` -/

/-- `Rt_ref_frame__single_observation()` calibration.py:1325-1333 -/
def single (RtRefCam : List Rt) (o : Obs) : Option Rt :=
  if o.cam = 0 then some o.pose else (RtRefCam[o.cam - 1]?).map fun T => composeRt T o.pose false false

/-- the sum of the transformed boards, divided by how many there are: calibration.py:1352-1357 -/
noncomputable def meanBoard (obj : List P3) (Ts : List Rt) : List P3 :=
  let sum := Ts.foldl (fun acc T => List.zipWith addP acc (obj.map fun p => transformPointRt T p false)) (obj.map fun _ => ⟨0, 0, 0⟩)
  sum.map fun p => ⟨p.x / Ts.length, p.y / Ts.length, p.z / Ts.length⟩

/-- `Rt_ref_frame()` calibration.py:1319-1364; the observations of one frame are given -/
noncomputable def refFrame (env : Env) (obj : List P3) (RtRefCam : List Rt) (rows : List Obs) : Option Rt :=
  match rows with
  | [o] => single RtRefCam o
  | rows =>
    match rows.mapM (single RtRefCam) with
    | none => none
    | some Ts => procrustes env (meanBoard obj Ts) obj

/-- iframe_current, and the observations from i_observation_framestart (none: both are -1); rt_ref_frame -/
structure JointSt where
  cur : Option (Nat × List Obs)
  out : List RtV

/-- one iteration calibration.py:1374-1386 -/
noncomputable def jointStep (env : Env) (obj : List P3) (RtRefCam : List Rt) (s : JointSt) (o : Obs) : Option JointSt :=
  match s.cur with
  | none => some ⟨some (o.frame, [o]), s.out⟩
  | some (f, rows) =>
    if o.frame ≠ f then (refFrame env obj RtRefCam rows).map fun T => ⟨some (o.frame, [o]), s.out ++ [rt_from_Rt T]⟩
    else some ⟨some (f, rows ++ [o]), s.out⟩

/-- `estimate_joint_frame_poses()` calibration.py:1316-1395 -/
noncomputable def estimateJointFramePoses (env : Env) (W H : Nat) (spacing : ℝ) (RtCamRef : List Rt) (obs : List Obs) : Option (List RtV) :=
  let RtRefCam := RtCamRef.map invertRt
  let obj := board W H spacing
  match obs.foldlM (jointStep env obj RtRefCam) ⟨none, []⟩ with
  | none => none
  | some s =>
    match s.cur with
    | none => some s.out
    | some (_, rows) => (refFrame env obj RtRefCam rows).map fun T => s.out ++ [rt_from_Rt T]

/-! ### `seed_stereographic()` -/

/-- the poses: calibration.py:1575-1608. The poses of the chessboard in respect to each camera are given: (rt_cam_ref, rt_ref_frame) -/
noncomputable def seedPoses (env : Env) (W H : Nat) (spacing : ℝ) (obs : List Obs) : Option (List RtV × List RtV) :=
  match estimateCameraPoses env W H spacing obs with
  | none => none
  | some Rt0c =>
    let RtCamRef := Rt0c.map invertRt
    (estimateJointFramePoses env W H spacing RtCamRef obs).map fun frames => (RtCamRef.map rt_from_Rt, frames)

end Mrcal.Seed
