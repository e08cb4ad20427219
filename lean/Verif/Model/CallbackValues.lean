import Verif.Model.Callback
import Verif.Model.Pack
import Verif.Model.Project
import Verif.Model.ProjectApi
import Verif.Model.Triangulation
/-
The values inside `optimizer_callback`: mrcal.c:4534-4697 (reconstituting the parameters, calling `project()`), 5010-5090 (points), 5233-5505 (triangulated
points). Callback.lean says what is stored where; this file says what is stored. Arithmetic is exact: `double` is ℝ.
-/
namespace Mrcal.Callback
open Mrcal Mrcal.Pack Mrcal.Pose

/-! ### the parameters, from the packed state or from the seed -/

/-- `intrinsics_all[icam][k]` mrcal.c:4534-4586. `seed` is `ctx->intrinsics`. The array has Nintrinsics elements: elsewhere (never read) this is 0 -/
noncomputable def intrinsicsAt (d : Dims) (b : Mem) (seed : Params) (icam k : Int) : ℝ :=
  let iv := stateIndexIntrinsics icam d
  if k < 0 ∨ d.lens.numParams ≤ k then 0
  else if k < Ncore d.lens then
    if d.sel.core then b (iv + k) * (if k < 2 then scaleFocal else scaleCenter)
    else seed (.intr (d.lens.numParams * icam + k))
  else
    if d.sel.distortions then b (iv + NcoreState d + (k - Ncore d.lens)) * scaleDistortion
    else seed (.intr (d.lens.numParams * icam + k))

/-- `unpack_solver_state_extrinsics_one` mrcal.c:3586-3601, `unpack_solver_state_framert_one` mrcal.c:3603-3619 -/
noncomputable def unpackPose (SR ST : ℝ) (b : Mem) (i : Int) : RtV :=
  ⟨⟨b (i + 0) * SR, b (i + 1) * SR, b (i + 2) * SR⟩, ⟨b (i + 3) * ST, b (i + 4) * ST, b (i + 5) * ST⟩⟩

/-- an element of an array of poses -/
def poseAt (P : Params) (a : Int → Addr) : RtV := ⟨⟨P (a 0), P (a 1), P (a 2)⟩, ⟨P (a 3), P (a 4), P (a 5)⟩⟩

/-- `camera_rt[icam]` mrcal.c:4587-4601 -/
noncomputable def cameraAt (d : Dims) (b : Mem) (seed : Params) (icam : Int) : RtV :=
  if d.sel.extrinsics then unpackPose scaleRotCamera scaleTransCamera b (stateIndexExtrinsics icam d) else poseAt seed (.cam icam)

/-- `frame_rt` mrcal.c:4623-4627 -/
noncomputable def frameAt (d : Dims) (b : Mem) (seed : Params) (iframe : Int) : RtV :=
  if d.sel.frames then unpackPose scaleRotFrame scaleTransFrame b (stateIndexFrames iframe d) else poseAt seed (.frame iframe)

/-- `point_ref` mrcal.c:5028-5032 -/
noncomputable def pointAt (d : Dims) (b : Mem) (seed : Params) (ipoint : Int) : P3 :=
  if d.sel.frames && decide (ipoint < d.Npoints - d.NpointsFixed) then
    let i := stateIndexPoints ipoint d
    ⟨b (i + 0) * scalePoint, b (i + 1) * scalePoint, b (i + 2) * scalePoint⟩
  else ⟨seed (.point ipoint 0), seed (.point ipoint 1), seed (.point ipoint 2)⟩

/-- `calobject_warp_local` mrcal.c:4537-4546. `given`: `ctx->calobject_warp != NULL` -/
noncomputable def warpAt (d : Dims) (b : Mem) (seed : Params) (given : Bool) : P2 :=
  if hasCalobjectWarp d.sel d.Nob then
    let i := stateIndexWarp d
    ⟨b (i + 0) * scaleWarp, b (i + 1) * scaleWarp⟩
  else if given then ⟨seed (.warp 0), seed (.warp 1)⟩
  else ⟨0, 0⟩

/-! ### project() -/

/-- element 0 or 1 -/
def pick2 (p : P2) (xy : Nat) : ℝ := if xy = 0 then p.x else p.y
def pick3 (p : P3) (k : Nat) : ℝ := if k = 0 then p.x else if k = 1 then p.y else p.z
def pickRow (r : Project.Rows) (xy k : Nat) : ℝ := pick3 (if xy = 0 then r.x else r.y) k

/-- `dq_dintrinsics_pool_int[]` mrcal.c:2166-2207: the first control point, at the grid coordinates (ix,iy) -/
noncomputable def splineIvar0 (order Nx Ny : Nat) (ix iy : ℝ) : Int :=
  if order = 3 then Spline.ivar0 Nx (Spline.cubicWindow Nx (Spline.truncC ix)) (Spline.cubicWindow Ny (Spline.truncC iy))
  else Spline.ivar0 Nx (Spline.quadWindow Nx (Spline.truncC (ix + 0.5))) (Spline.quadWindow Ny (Spline.truncC (iy + 0.5)))

/-- one of the two halves of `gradient_sparse_meta.pool`: the weights along one axis, at the grid coordinate i. mrcal.c:2166-2216 -/
noncomputable def splineWeights (order N : Nat) (i : ℝ) : Nat → ℝ :=
  if order = 3 then (Spline.cubicW (i - Spline.cubicWindow N (Spline.truncC i))).nth
  else (Spline.quadW (i - Spline.quadWindow N (Spline.truncC (i + 0.5)))).nth

/-- what `project()` reports, in terms of what the lens reports at the point `p` in camera coordinates, and the gradients propagated to the poses.

`dq_dfxy` and `dq_dintrinsics_nocore` are read here from the dense rows of `LensOut`: element (xy, k) of the pool is what `_mrcal_project_internal` copies to
column k (mrcal.c:2941-2964). If CAHVORE fails then these are 0: mrcal.c:2503-2512 -/
noncomputable def mkProj (L : Lens) (intr : Int → ℝ) (p : P3) (o : Project.Out) : Proj :=
  let row : Nat → Nat → ℝ := match Cam.lensOut L intr p with | some l => l.row | none => fun _ _ => 0
  let segs : ℝ := match L with | .splined order Nx Ny fov => (Spline.segmentsPerU order Nx Ny fov).getD 0 | _ => 0
  { q := pick2 o.q
    dfxy := fun xy => row xy xy
    ivar0 := match L with | .splined order Nx Ny _ => splineIvar0 order Nx Ny (Spline.gridCoord Nx segs (Spline.stereoU p).x) (Spline.gridCoord Ny segs (Spline.stereoU p).y) | _ => 0
    ABCDx := match L with | .splined order Nx _ _ => splineWeights order Nx (Spline.gridCoord Nx segs (Spline.stereoU p).x) | _ => fun _ => 0
    ABCDy := match L with | .splined order _ Ny _ => splineWeights order Ny (Spline.gridCoord Ny segs (Spline.stereoU p).y) | _ => fun _ => 0
    nocore := fun xy i => row xy (4 + i.toNat)
    drcam := pickRow o.drcamera
    dtcam := pickRow o.dtcamera
    drframe := pickRow o.drframe
    dtframe := pickRow o.dtframe
    dpoint := pickRow o.dtframe
    dwarp := fun xy i => pick2 (if xy = 0 then o.dwarpx else o.dwarpy) i.toNat }

/-- the point in camera coordinates at which `project()` evaluates the lens: mrcal.c:2797-2823, mrcal.c:2773-2781 -/
noncomputable def camPoint (cam : Option RtV) (frame : RtV) (pt : P3) : P3 :=
  let (rtj, gg) := Project.joint cam frame
  (Project.propagateExtrinsics pt gg rtj).p

/-! ### triangulated points -/

/-- mrcal.c:5233-5505: both observation vectors in the coordinates of camera 1; the error; its gradient propagated to the two poses. `rt0`, `rt1` are none if that
camera is at the reference. If both are then C dereferences NULL: here t_10 is 0 -/
noncomputable def triResidual (rt0 rt1 : Option RtV) (v0 v1 : P3) : TriRes :=
  let neg (p : P3) : P3 := ⟨-p.x, -p.y, -p.z⟩
  let zero : P3 := ⟨0, 0, 0⟩
  let sub (a b : P3) : P3 := ⟨a.x - b.x, a.y - b.y, a.z - b.z⟩
  match rt0, rt1 with
  | some c0, some c1 =>
    let nt := rotatePointr c0.r c0.t true true true
    let v0ref := rotatePointr c0.r v0 true true false
    let t10 := transformPointrt c1 (neg nt.x) false true true
    let v0cam1 := rotatePointr c1.r v0ref.x false true true
    let e := Tri.triangulatedError v1 v0cam1.x t10.x
    let derr_dtr0 := vecMul e.2.2 (t10.Jx.getD identityR)
    let temp := vecMul e.2.1 (v0cam1.Jx.getD identityR)
    let Jrt := t10.Jrt.getD (identityR, identityR)
    { err := e.1
      dr0 := pick3 (sub (vecMul temp (v0ref.Jr.getD identityR)) (vecMul derr_dtr0 (nt.Jr.getD identityR)))
      dt0 := pick3 (neg (vecMul derr_dtr0 (nt.Jx.getD identityR)))
      dr1 := pick3 (addP (vecMul e.2.1 (v0cam1.Jr.getD identityR)) (vecMul e.2.2 Jrt.1))
      dt1 := pick3 (vecMul e.2.2 Jrt.2) }
  | none, some c1 =>
    let v0cam1 := rotatePointr c1.r v0 false true true
    let e := Tri.triangulatedError v1 v0cam1.x c1.t
    { err := e.1
      dr0 := pick3 zero
      dt0 := pick3 zero
      dr1 := pick3 (vecMul e.2.1 (v0cam1.Jr.getD identityR))
      dt1 := pick3 e.2.2 }
  | some c0, none =>
    let nt := rotatePointr c0.r c0.t true true true
    let v0ref := rotatePointr c0.r v0 true true false
    let e := Tri.triangulatedError v1 v0ref.x (neg nt.x)
    { err := e.1
      dr0 := pick3 (sub (vecMul e.2.1 (v0ref.Jr.getD identityR)) (vecMul e.2.2 (nt.Jr.getD identityR)))
      dt0 := pick3 (neg (vecMul e.2.2 (nt.Jx.getD identityR)))
      dr1 := pick3 zero
      dt1 := pick3 zero }
  | none, none =>
    { err := (Tri.triangulatedError v1 v0 zero).1, dr0 := pick3 zero, dt0 := pick3 zero, dr1 := pick3 zero, dt1 := pick3 zero }

/-! ### all together -/

/-- the inputs of `mrcal_optimizer_callback()`, other than the packed state -/
structure Problem where
  d : Dims
  W : Nat
  H : Nat
  /-- calibration_object_spacing -/
  spacing : ℝ
  /-- calobject_warp != NULL -/
  warpGiven : Bool
  boards : List BoardObs
  points : List PointObs
  tri : List TriObs
  /-- `px` of each triangulated observation: the observation vector, in the coordinates of its camera -/
  triV : Nat → P3
  imagersizes : Int → ℝ
  /-- intrinsics, rt_cam_ref, rt_ref_frame, points, calobject_warp -/
  seed : Params

/-- the camera pose passed to `project()`: `camera_at_identity = icam_extrinsics < 0` -/
noncomputable def camOpt (d : Dims) (b : Mem) (seed : Params) (icam : Int) : Option RtV :=
  if icam < 0 then none else some (cameraAt d b seed icam)

/-- `project()` for one corner of a board: mrcal.c:4670-4697. Corner ipt is in column ipt%W, row ipt/W (mrcal.c:2794-2795) -/
noncomputable def boardProj (P : Problem) (b : Mem) (o : BoardObs) (ipt : Nat) : Proj :=
  let intr := intrinsicsAt P.d b P.seed o.icamI
  let cam := camOpt P.d b P.seed o.icamE
  let frame := frameAt P.d b P.seed o.iframe
  let warp := if P.warpGiven then some (warpAt P.d b P.seed P.warpGiven) else none
  let x := ipt % P.W
  let y := ipt / P.W
  mkProj P.d.lens intr (camPoint cam frame (Project.boardPoint P.W P.H P.spacing warp x y).1)
    (Project.projectCorner (Cam.hypothesis P.d.lens intr) cam frame P.W P.H P.spacing warp x y)

/-- `project()` for one point: mrcal.c:5049-5090 -/
noncomputable def pointProj (P : Problem) (b : Mem) (o : PointObs) : Proj :=
  let intr := intrinsicsAt P.d b P.seed o.icamI
  let cam := camOpt P.d b P.seed o.icamE
  let t := pointAt P.d b P.seed o.ipoint
  mkProj P.d.lens intr (camPoint cam ⟨⟨0, 0, 0⟩, t⟩ ⟨0, 0, 0⟩) (Project.projectDiscrete (Cam.hypothesis P.d.lens intr) cam t)

def noBoard : BoardObs := ⟨0, -1, 0, fun _ _ => 0, fun _ => -1⟩
def noPoint : PointObs := ⟨0, -1, 0, fun _ => 0, -1⟩

/-- `optimizer_callback` at the packed state b -/
noncomputable def Problem.ctx (P : Problem) (b : Mem) : Ctx where
  d := P.d
  W := P.W
  H := P.H
  boards := P.boards
  points := P.points
  tri := P.tri
  projBoard := fun iobs ipt => boardProj P b (P.boards.getD iobs noBoard) ipt
  projPoint := fun iobs => pointProj P b (P.points.getD iobs noPoint)
  projTri := fun i0 i1 =>
    let cam (i : Nat) : Option RtV := camOpt P.d b P.seed ((P.tri[i]?.map fun o => o.icamE).getD (-1))
    triResidual (cam i0) (cam i1) (P.triV i0) (P.triV i1)
  intrinsics := intrinsicsAt P.d b P.seed
  t0 := fun k => pick3 (cameraAt P.d b P.seed 0).t k
  imagersizes := P.imagersizes

end Mrcal.Callback
