import Verif.Model.Pose
import Verif.Model.LensName
/-
show_geometry(): /repo/mrcal/visualization.py:214-750. Line numbers are of this file.

What is plotted is modelled; gnuplot isn't, and neither is the default scale of the axes (lines 335-366): the scale is given. Simplified: all transforms are Rt: the conversions from and to rt are modelled in `Pose`; the calibration object
(mrcal.ref_calibration_object(), line 641) is a list of points, its spacing is positive (lines 620-623). Arithmetic is exact.
-/
namespace Mrcal.Geometry

open Mrcal Mrcal.Pose

abbrev Str := List Char

/-- optimization_inputs: the parts that are used -/
structure Inputs where
  Rt_cam_ref : List Rt
  /-- observations_board exists, and it isn't empty -/
  hasBoards : Bool
  /-- rt_ref_frame -/
  frames : List Rt
  /-- the calibration object -/
  object : List P3
  /-- indices_frame_camintrinsics_camextrinsics -/
  idxFrame : List (Nat × Nat × Int)
  points : List P3
  /-- indices_point_camintrinsics_camextrinsics -/
  idxPoint : List (Nat × Nat × Int)

/-- a mrcal.cameramodel -/
structure Model where
  Rt_ref_cam : Rt
  inputs : Option Inputs
  icamIntrinsics : Nat
  /-- `none`: not in the file: cameramodel.py:677-678 -/
  icamExtrinsics : Option Int

/-- models_or_rt_cam_ref -/
inductive Cam where
  | model (m : Model)
  | pose (Rt_cam_ref : Rt)

/-- show_calobjects, show_points. `other`: any other value that's true -/
inductive Show where
  | no
  | all
  | this
  | other
deriving DecidableEq

inductive FromSolve where
  | all
  | list (l : List Int)

inductive PlotRef where
  | none
  | one (T : Rt)
  | each (l : List Rt)

structure Args where
  cams : List Cam
  fromSolve : Option FromSolve
  names : Option (List Str)
  plotRef : PlotRef
  /-- rt_ref_frame, with the calibration object -/
  frames : Option (List Rt × List P3)
  points : Option (List P3)
  showBoards : Show
  showPoints : Show
  scale : ℝ
  /-- point_labels: a dict -/
  labels : Option (List (Nat × Str))

/-- `rt_cam_ref_at` lines 250-252; cameramodel.py:1276-1279 does the same. `none`: IndexError -/
def solvePose (I : Inputs) (e : Int) : Option Rt := if e < 0 then some identityRt else I.Rt_cam_ref[e.toNat]?

/-- icam_extrinsics_fromsolve: lines 233-245 -/
def icams (I : Inputs) : FromSolve → List Int
  | .list l => l
  | .all =>
    (if (I.idxFrame.any fun x => decide (x.2.2 < 0)) || (I.idxPoint.any fun x => decide (x.2.2 < 0)) then [-1] else []) ++ (List.range I.Rt_cam_ref.length).map fun (k : Nat) => (k : Int)

/-- models_or_rt_cam_ref: lines 224-258. `none`: an exception -/
def cameras (A : Args) : Option (List Cam) :=
  match A.fromSolve with
  | none => some A.cams
  | some w =>
    match A.cams with
    | [.model m] => m.inputs.bind fun I => ((icams I w).zipIdx).mapM fun x => (solvePose I x.1).map fun T =>
        if x.2 = 0 then .model ⟨invertRt T, some I, m.icamIntrinsics, some x.1⟩ else .pose T
    | _ => none

/-- an integer in a name: f"{i}" -/
def intText (i : Int) : Str := if i < 0 then '-' :: Name.printNat i.natAbs else Name.printNat i.natAbs

/-- cameranames: lines 260-267. `none`: an exception -/
def cameraNames (A : Args) (n : Nat) : Option (Option (List Str)) :=
  match A.names with
  | some l => if l.length ≠ n then none else some (some l)
  | none =>
    match A.fromSolve, A.cams with
    | some w, [.model m] => some (m.inputs.map fun I => (icams I w).map fun i => "icam_extrinsics=".toList ++ intText i)
    | _, _ => some none

/-- `camera_name` lines 592-596 -/
def cameraName (names : Option (List Str)) (i : Nat) : Str := ((names.bind fun l => l[i]?)).getD ("cam".toList ++ Name.printNat i)

/-- `get_Rt_ref_cam_one` lines 320-324 -/
def refCam : Cam → Rt
  | .model m => m.Rt_ref_cam
  | .pose T => invertRt T

/-- the first model with optimization_inputs: lines 271-274 -/
def firstInputs : List Cam → Option (Nat × Model × Inputs)
  | [] => none
  | c :: l =>
    match c with
    | .model m =>
      match m.inputs with
      | some I => some (0, m, I)
      | none => (firstInputs l).map fun r => (r.1 + 1, r.2)
    | .pose _ => (firstInputs l).map fun r => (r.1 + 1, r.2)

/-- cameras_Rt_plot_ref: lines 276-310. `none`: an exception -/
def plotRefs (A : Args) (n : Nat) : Option (Option (List Rt)) :=
  match A.plotRef with
  | .none => some none
  | .one T => some (some (List.replicate n T))
  | .each l => if l.length ≠ n then none else if A.frames.isSome || A.points.isSome then none else some (some l)

/-- mask_observations, and then the selection: lines 411-418, 475-482 -/
def observed (idx : List (Nat × Nat × Int)) (intr : Nat) (extr : Option Int) : List Nat :=
  (idx.filter fun x => decide (x.2.1 = intr) && decide (some x.2.2 = extr)).map fun x => x.1

/-- `get_boards_to_plot` lines 369-439. The transforms of the boards, and the object; `some none`: no boards. `none`: an exception -/
def boards (A : Args) (cams : List Cam) : Option (Option (List Rt × List P3)) :=
  if A.showBoards = .no then some none
  else match A.frames with
    | some f => some (some f)
    | none =>
      if A.showBoards = .other then none
      else match firstInputs cams with
        | none => some none
        | some (_, m, I) =>
          if !I.hasBoards then some none
          else (if A.showBoards = .this then (observed I.idxFrame m.icamIntrinsics m.icamExtrinsics).mapM fun f => I.frames[f]? else some I.frames).bind fun fr =>
            m.icamExtrinsics.bind fun e =>
              if e < 0 then some (some (fr.map fun F => composeRt m.Rt_ref_cam F false false, I.object))
              else (I.Rt_cam_ref[e.toNat]?).map fun T => some (fr.map fun F => composeRt m.Rt_ref_cam (composeRt T F false false) false false, I.object)

/-- `get_points_to_plot` lines 441-495 -/
def pointsToPlot (A : Args) (cams : List Cam) : Option (Option (List P3)) :=
  if A.showPoints = .no then some none
  else match A.points with
    | some p => some (some p)
    | none =>
      if A.showPoints = .other then none
      else match firstInputs cams with
        | none => some none
        | some (_, m, I) =>
          if I.points.isEmpty then some none
          else (if A.showPoints = .this then (observed I.idxPoint m.icamIntrinsics m.icamExtrinsics).mapM fun f => I.points[f]? else some I.points).bind fun p =>
            m.icamExtrinsics.bind fun e =>
              if e < 0 then some (some (p.map fun x => transformPointRt m.Rt_ref_cam x false))
              else (I.Rt_cam_ref[e.toNat]?).map fun T => some (p.map fun x => transformPointRt m.Rt_ref_cam (transformPointRt T x false) false)

/-- the axes of a camera: the center, then vectors from there; the positions of the labels x,y,z -/
structure Axes where
  center : P3
  x : P3
  y : P3
  z : P3
  labels : P3 × P3 × P3

/-- `gen_plot_axes`, `extend_axes_for_plotting`, `gen_plot_axes_labels` lines 511-574 -/
noncomputable def axes (T : Rt) (s : ℝ) : Axes :=
  let f := fun x => transformPointRt T x false
  ⟨f ⟨0, 0, 0⟩, subP (f ⟨s, 0, 0⟩) (f ⟨0, 0, 0⟩), subP (f ⟨0, s, 0⟩) (f ⟨0, 0, 0⟩), subP (f ⟨0, 0, 2 * s⟩) (f ⟨0, 0, 0⟩),
    (f ⟨1.01 * s, 0, 0⟩, f ⟨0, 1.01 * s, 0⟩, f ⟨0, 0, 1.01 * (2 * s)⟩)⟩

/-- `camera_Rt_toplotcoords` lines 586-590 -/
def cameraToPlot (P : Option (List Rt)) (i : Nat) (T : Rt) : Rt :=
  match P with
  | none => T
  | some l => composeRt (l.getD i identityRt) T false false

/-- boards and points: lines 650-656, 692-698 -/
def toPlot (P : Option (List Rt)) (cams : List Cam) (x : P3) : P3 :=
  match P with
  | none => x
  | some l => transformPointRt (l.getD (((firstInputs cams).map fun r => r.1).getD 0) identityRt) x false

/-- `gen_curves_points` lines 688-690, 700-720: the legend, the points. `none`: IndexError; line 704 has this if the dict is empty, too: np.array([]) is an array of floats. Negative indices aren't modelled -/
def pointCurves (labels : Option (List (Nat × Str))) (p : List P3) : Option (List (Str × List P3)) :=
  if p.isEmpty then some []
  else match labels with
    | none => some [("points".toList, p)]
    | some lab =>
      if lab.isEmpty then none
      else (lab.mapM fun x => p[x.1]?.map fun q => (x.2, [q])).map fun l =>
        ("points".toList, (p.zipIdx.filter fun x => !(lab.any fun y => decide (y.1 = x.2))).map fun x => x.1) :: l

structure Out where
  cameras : List (Str × Axes)
  boards : List (List P3)
  points : List (Str × List P3)

/-- `show_geometry()` lines 214-750. `none`: an exception. Without cameras there's one, too: line 611 -/
noncomputable def geometry (A : Args) : Option Out :=
  (cameras A).bind fun cams =>
  (cameraNames A cams.length).bind fun names =>
  (plotRefs A cams.length).bind fun P =>
  if cams.isEmpty then none
  else (boards A cams).bind fun b =>
  (pointsToPlot A cams).bind fun p =>
  (pointCurves A.labels ((p.getD []).map (toPlot P cams))).map fun pc =>
    ⟨cams.zipIdx.map fun c => (cameraName names c.2, axes (cameraToPlot P c.2 (refCam c.1)) A.scale),
      match b with
      | none => []
      | some (fr, obj) => fr.map fun F => obj.map fun x => toPlot P cams (transformPointRt F x false),
      pc⟩

end Mrcal.Geometry
