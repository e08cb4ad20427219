import Verif.Model.Triangulation
import Verif.Model.UnprojectPy
import Verif.Model.ProjUncertainty
import Verif.Model.CameraModel
import Verif.Model.Outliers
/-
`mrcal.triangulate()` mrcal/triangulation.py:1616-2018, with `_parse_args()` (27-58), the wrappers of the C routines, `_compute_Var_q_triangulation()` (1090-1125), `_triangulate_grad_simple()` (1128-1181) and
`_triangulation_uncertainty_internal()` (1184-1613).

Arithmetic is exact. The broadcasted slices are a list: the shapes of the arrays aren't modelled, so Var_p_calibration is a (3N,3N) matrix. `none`: an exception; or a pixel couldn't be unprojected (the
code then works with NaN; that isn't modelled). The optimization inputs are a `Problem`, as in Model/ProjUncertainty.lean. The state indices that are returned for the test suite aren't modelled.
-/
namespace Mrcal.TriPy
open Mrcal Mrcal.Pose Mrcal.Tri Mrcal.AD Mrcal.Callback Mrcal.Pack Mrcal.Propagate Mrcal.UnprojectPy

/-- the `method` argument: the functions triangulation.py:60-940 -/
inductive Method where
  | geometric
  | leeciveraL1
  | leeciveraLinf
  | leeciveraMid2
  | leeciveraWmid2
  | lindstrom
  deriving DecidableEq

/-- the C routine of a method that takes v0, v1, t01: triangulation-genpywrap.py:74-132 -/
noncomputable def Method.routine : Method → Option (Vec3 9 → Vec3 9 → Vec3 9 → Option (Vec3 9))
  | .geometric => some Tri.geometric
  | .leeciveraL1 => some Tri.leeciveraL1
  | .leeciveraLinf => some Tri.leeciveraLinf
  | .leeciveraMid2 => some Tri.leeciveraMid2
  | .leeciveraWmid2 => some Tri.leeciveraWmid2
  | .lindstrom => none

/-- `_parse_args()` triangulation.py:27-58: v1 and t01 in the coordinates of camera 0 -/
def parseArgs (v1 : P3) (t01 : Option P3) (getGradients vAreLocal : Bool) (Rt01 : Option Rt) : Option (P3 × P3) :=
  match Rt01, t01 with
  | some _, some _ => none
  | none, none => none
  | some Rt01, none =>
    if vAreLocal then
      if getGradients then none else some (Pose.mulVec Rt01.R v1, Rt01.t)
    else if getGradients then none else some (v1, Rt01.t)
  | none, some t01 => if vAreLocal then none else some (v1, t01)

/-- a method, without gradients: for example triangulation.py:644-648; `triangulate_lindstrom` 945-951 -/
noncomputable def call (method : Method) (v0 v1 : P3) (t01 : Option P3) (vAreLocal : Bool) (Rt01 : Option Rt) : Option P3 :=
  match method.routine with
  | some F => (parseArgs v1 t01 false vAreLocal Rt01).map fun a => point (seeded F v0 a.1 a.2)
  | none => match Rt01 with
    | some Rt01 => some (point (lindstromSeeded v0 (if vAreLocal then v1 else Pose.mulVec (Pose.transpose Rt01.R) v1) Rt01))
    | none => none

/-- three rows -/
def rowsM (J : P3 × P3 × P3) : M3 := ⟨J.1.x, J.1.y, J.1.z, J.2.1.x, J.2.1.y, J.2.1.z, J.2.2.x, J.2.2.y, J.2.2.z⟩

/-- the point and dp_dv0, dp_dv1, dp_dt01 -/
structure Called where
  p : P3
  dv0 : M3
  dv1 : M3
  dt01 : M3

/-- a method with gradients, writing into zeroed arrays: triangulation.py:1155-1165, 1231-1242. If the routine fails, it doesn't touch them -/
noncomputable def callGrad (method : Method) (v0 v1 t01 : P3) : Option Called :=
  match method.routine with
  | none => none
  | some F => (parseArgs v1 (some t01) true false none).map fun a =>
    let o := seeded F v0 a.1 a.2
    match gradients o with
    | some J => ⟨point o, rowsM J.1, rowsM J.2.1, rowsM J.2.2⟩
    | none => ⟨point o, zeroM, zeroM, zeroM⟩

/-- what's used of a camera model. `solve`, `prev`: Model/UnprojectPy.lean -/
structure Camera where
  lens : Lens
  intr : Int → ℝ
  /-- rt_cam_ref() -/
  rt : RtV
  /-- optimization_inputs() -/
  inputs : Option Problem
  icamI : Int
  icamE : Int
  solve : Cam.Solver
  prev : Cam.NanP3

/-- one broadcasted slice: two pixels, two models -/
structure Slice where
  q0 : P2
  q1 : P2
  m0 : Camera
  m1 : Camera

/-- `triangulate_slice` triangulation.py:1869-1885 -/
noncomputable def plain (method : Method) (s : Slice) : Option P3 := do
  let Rt01 := composeRt (Rt_from_rt s.m0.rt) (invertRt (Rt_from_rt s.m1.rt)) false false
  let v0 ← (unproject s.m0.lens s.m0.intr s.m0.solve s.m0.prev false s.q0).bind finite
  let v1 ← (unproject s.m1.lens s.m1.intr s.m1.solve s.m1.prev false s.q1).bind finite
  call method v0 v1 none true (some Rt01)

/-- column 0 or 1 of `dv_dq` -/
def qCol (g : Grads) (k : Nat) : P3 := if k = 0 then ⟨g.dvx.x, g.dvy.x, g.dvz.x⟩ else ⟨g.dvx.y, g.dvy.y, g.dvz.y⟩

/-- `dp_triangulated_dq` triangulation.py:1167-1178, 1244-1256: column k, of 4 -/
def dpDq (c : Called) (g0 g1 : Grads) (dv1_dvlocal1 : M3) (k : Nat) : P3 :=
  if k < 2 then Pose.mulVec c.dv0 (qCol g0 k) else Pose.mulVec (Pose.mul c.dv1 dv1_dvlocal1) (qCol g1 (k - 2))

/-- everything in the "full path" -/
structure Full where
  c : Called
  dq : Nat → P3
  /-- rt_ref1, and its gradients -/
  ref1 : RtV × M3 × M3
  /-- rt01, and its gradients -/
  comp : ComposeRt
  g0 : Grads
  g1 : Grads
  dv1_dr01 : M3
  dv1_dvlocal1 : M3

/-- `_triangulate_grad_simple()` triangulation.py:1128-1181: the point, and the columns of dp_triangulated_dq -/
noncomputable def gradSimple (method : Method) (s : Slice) : Option (P3 × (Nat → P3)) := do
  let rt01 := (composert s.m0.rt (invertrt s.m1.rt).1 false false).rt
  let g0 ← (unprojectGrads s.m0.lens s.m0.intr s.m0.solve s.m0.prev false s.q0).join
  let g1 ← (unprojectGrads s.m1.lens s.m1.intr s.m1.solve s.m1.prev false s.q1).join
  let v1 := rotatePointr rt01.r g1.v false true true
  let c ← callGrad method g0.v v1.x rt01.t
  some (c.p, dpDq c g0 g1 (v1.Jx.getD identityR))

/-- `_triangulate_grad()` triangulation.py:1201-1271 -/
noncomputable def gradFull (method : Method) (s : Slice) : Option Full := do
  let ref1 := invertrt s.m1.rt
  let comp := composert s.m0.rt ref1.1 false false
  let g0 ← (unprojectGrads s.m0.lens s.m0.intr s.m0.solve s.m0.prev false s.q0).join
  let g1 ← (unprojectGrads s.m1.lens s.m1.intr s.m1.solve s.m1.prev false s.q1).join
  let v1 := rotatePointr comp.rt.r g1.v false true true
  let c ← callGrad method g0.v v1.x comp.rt.t
  some ⟨c, dpDq c g0 g1 (v1.Jx.getD identityR), ref1, comp, g0, g1, v1.Jr.getD identityR, v1.Jx.getD identityR⟩

/-- `np.linalg.solve()` with a 3x3 matrix: the inverse -/
noncomputable def inverse3 (A : M3) : Option M3 :=
  let det := A.a00 * (A.a11 * A.a22 - A.a12 * A.a21) - A.a01 * (A.a10 * A.a22 - A.a12 * A.a20) + A.a02 * (A.a10 * A.a21 - A.a11 * A.a20)
  if det = 0 then none
  else some ⟨(A.a11 * A.a22 - A.a12 * A.a21) / det, (A.a02 * A.a21 - A.a01 * A.a22) / det, (A.a01 * A.a12 - A.a02 * A.a11) / det,
    (A.a12 * A.a20 - A.a10 * A.a22) / det, (A.a00 * A.a22 - A.a02 * A.a20) / det, (A.a02 * A.a10 - A.a00 * A.a12) / det,
    (A.a10 * A.a21 - A.a11 * A.a20) / det, (A.a01 * A.a20 - A.a00 * A.a21) / det, (A.a00 * A.a11 - A.a01 * A.a10) / det⟩

/-- column k of a 3x3 matrix -/
def mCol (M : M3) (k : Nat) : P3 := match k with
  | 0 => ⟨M.a00, M.a10, M.a20⟩
  | 1 => ⟨M.a01, M.a11, M.a21⟩
  | _ => ⟨M.a02, M.a12, M.a22⟩

/-- column k of a (3,6) matrix: the r columns, the t columns -/
def rtCol (J : M3 × M3) (k : Nat) : P3 := if k < 3 then mCol J.1 k else mCol J.2 (k - 3)

/-- `transform_point_rt(rt, p, get_gradients=True, inverted=True)`: the point, the gradients with respect to r, t, p -/
noncomputable def intoPose (T : RtV) (p : P3) : P3 × (M3 × M3) × M3 :=
  let o := transformPointrt T p true true true
  (o.x, o.Jrt.getD (identityR, identityR), o.Jx.getD identityR)

/-- `stabilize()` triangulation.py:1359-1403: dp_triangulated_drt_0ref -/
noncomputable def stabilize0 (T0 : RtV) (p : P3) : Option (M3 × M3) :=
  let o := intoPose T0 p
  (inverse3 o.2.2).map fun i => (Pose.mul i o.2.1.1, Pose.mul i o.2.1.2)

/-- `stabilize()` triangulation.py:1376-1397: dp_triangulated_drtrf of one frame, before the division by Nframes -/
noncomputable def stabilizeFrame (T0 Tf : RtV) (p : P3) : Option (M3 × M3) :=
  let o := intoPose T0 p
  let f := intoPose Tf o.1
  (inverse3 (Pose.mul f.2.2 o.2.2)).map fun i => (Pose.mul i f.2.1.1, Pose.mul i f.2.1.2)

/-- the columns of a (3,Nstate) array -/
abbrev Cols := Int → P3

/-- `F[:, i0:i0+n] = f` -/
def setCols (F : Cols) (i0 n : Int) (f : Nat → P3) : Cols := fun c => if i0 ≤ c ∧ c < i0 + n then f (c - i0).toNat else F c
/-- `F[:, i0:i0+n] += f` -/
def addCols (F : Cols) (i0 n : Int) (f : Nat → P3) : Cols := fun c => if i0 ≤ c ∧ c < i0 + n then addP (F c) (f (c - i0).toNat) else F c

/-- `slice_optimized_intrinsics` triangulation.py:1500-1510: the first element, and how many there are. In Python `-0` is `0`: the end of the slice is then its beginning -/
def sliceOptimized (P : Problem) : Int × Int :=
  let n := P.d.lens.numParams
  let ncore : Int := if P.d.lens.hasCore then 4 else 0
  let ndist := n - ncore
  let i0 := if P.d.sel.core then 0 else ncore
  let i1 := if P.d.sel.distortions then n else if ndist = 0 then 0 else n - ndist
  (i0, max 0 (i1 - i0))

/-- the intrinsics of one camera: triangulation.py:1491-1527. The output slice must have the same number of elements. `J`: the gradient of the point with respect to the local observation vector -/
noncomputable def intrinsicsBlock (P : Problem) (icam : Int) (J : M3) (g : Grads) (F : Cols) : Option Cols :=
  let istate := stateIndexIntrinsics icam P.d
  if istate ≥ 0 then
    let s := sliceOptimized P
    if s.2 = numIntrinsicsOpt P.d.sel P.d.lens then some (setCols F istate s.2 fun k => Pose.mulVec J (g.di (s.1.toNat + k)))
    else none
  else some F

/-- `istate_e0`, `istate_e1` triangulation.py:1530-1541 -/
def extrinsicsIndex (P : Problem) (icam : Int) : Option (Option Int) :=
  match Outliers.pyCorrespondingIcamExtrinsics icam P.d.Nci P.d.Nce (P.boards.map fun o => (o.icamI, o.icamE)) (P.points.map fun o => (o.icamI, o.icamE)) with
  | .ok (some e) =>
    if e ≥ 0 then
      let i := stateIndexExtrinsics e P.d
      some (if i ≥ 0 then some i else none)
    else some none
  | _ => none

/-- camera 1: triangulation.py:1543-1567: the gradients with respect to r_1ref, t_1ref -/
def camera1Cols (f : Full) : M3 × M3 :=
  -- drt_ref1_drt_1ref = [-1 0; dt_dr dt_dt]; drt01_drt_ref1 = [dr_dr1 0; dt_dr1 dt_dt1]
  let dr01_dr_1ref := Pose.mul f.comp.dr_r1 (negM identityR)
  let dt01_dr_1ref := addM (Pose.mul f.comp.dt_r1 (negM identityR)) (Pose.mul f.comp.dt_t1 f.ref1.2.1)
  let dt01_dt_1ref := addM (Pose.mul f.comp.dt_r1 zeroM) (Pose.mul f.comp.dt_t1 f.ref1.2.2)
  (addM (Pose.mul (Pose.mul f.c.dv1 f.dv1_dr01) dr01_dr_1ref) (Pose.mul f.c.dt01 dt01_dr_1ref), Pose.mul f.c.dt01 dt01_dt_1ref)
where addM (a b : M3) : M3 := ⟨a.a00 + b.a00, a.a01 + b.a01, a.a02 + b.a02, a.a10 + b.a10, a.a11 + b.a11, a.a12 + b.a12, a.a20 + b.a20, a.a21 + b.a21, a.a22 + b.a22⟩

/-- camera 0: triangulation.py:1569-1582: the gradients with respect to r_0ref, t_0ref -/
def camera0Cols (f : Full) : M3 × M3 :=
  (camera1Cols.addM (Pose.mul (Pose.mul f.c.dv1 f.dv1_dr01) f.comp.dr_r0) (Pose.mul f.c.dt01 f.comp.dt_r0), Pose.mul f.c.dt01 f.comp.dt_t0)

/-- `dp_triangulated_db` of one point: triangulation.py:1405-1420, 1469-1599 -/
noncomputable def dpDb (P : Problem) (s : Slice) (f : Full) (stabilize : Bool) : Option Cols := do
  let istate_f0 := stateIndexFrames 0 P.d
  let stab0 ← if stabilize then (stabilize0 s.m0.rt f.c.p).map some else some none
  let n := P.d.Nframes.toNat
  let stabF ← if stabilize && decide (istate_f0 ≥ 0) then
      ((List.range n).mapM fun (i : Nat) => stabilizeFrame s.m0.rt (poseAt P.seed (.frame i)) f.c.p).map some
    else some none
  let F ← intrinsicsBlock P s.m0.icamI f.c.dv0 f.g0 fun _ => ⟨0, 0, 0⟩
  let F ← intrinsicsBlock P s.m1.icamI (Pose.mul f.c.dv1 f.dv1_dvlocal1) f.g1 F
  let e0 ← extrinsicsIndex P s.m0.icamI
  let e1 ← extrinsicsIndex P s.m1.icamI
  let F := match e1 with
    | some i => setCols F i 6 (rtCol (camera1Cols f))
    | none => F
  let F := match e0 with
    | some i =>
      let F := setCols F i 6 (rtCol (camera0Cols f))
      match stab0 with
      | some J => addCols F i 6 (rtCol J)
      | none => F
    | none => F
  some (match stabF with
    | some l => setCols F istate_f0 (numStatesFrames P.d) fun k =>
      let c := rtCol (l.getD (k / 6) (zeroM, zeroM)) (k % 6)
      ⟨c.x / n, c.y / n, c.z / n⟩
    | none => F)

/-- `_compute_Var_q_triangulation()` triangulation.py:1090-1125. The order is q0x, q0y, q1x, q1y -/
def varQ (sigma corr : ℝ) (i j : Nat) : ℝ :=
  let cross := sigma * corr
  if (i = 0 ∧ j = 2) ∨ (i = 1 ∧ j = 3) ∨ (i = 2 ∧ j = 0) ∨ (i = 3 ∧ j = 1) then cross * cross
  else if i = j then sigma * sigma else 0

/-- `Var_p_observation` of one point: triangulation.py:1454-1458: dp_dq Var_q transpose(dp_dq) -/
noncomputable def varObs (dq : Nat → P3) (V : Nat → Nat → ℝ) (r c : Nat) : ℝ :=
  ∑ i ∈ Finset.range 4, (∑ j ∈ Finset.range 4, pick3 (dq j) r * V j i) * pick3 (dq i) c

/-- what's returned -/
inductive Ret where
  | point (p : List P3)
  | calibration (p : List P3) (V : Nat → Nat → ℝ)
  | observation (p : List P3) (V : List (Nat → Nat → ℝ))
  | all (p : List P3) (Vc : Nat → Nat → ℝ) (Vo : List (Nat → Nat → ℝ)) (Vj : Nat → Nat → ℝ)

open Classical in
/-- triangulation.py:1911-1930: the optimization inputs, if all the checks succeed -/
noncomputable def inputsOf (slices : List Slice) : Option Problem :=
  let models := slices.flatMap fun s => [s.m0, s.m1]
  match models.head?.bind Camera.inputs with
  | none => none
  | some P =>
    if ∀ m ∈ models, m.inputs = some P ∧ ¬ CamModel.extrinsicsMoved m.icamE m.rt (poseAt P.seed (.cam m.icamE)) then some P else none

/-- `Var_p_joint` triangulation.py:2004-2016 -/
def joint (Vc : Nat → Nat → ℝ) (Vo : List (Nat → Nat → ℝ)) : Nat → Nat → ℝ := fun r c =>
  if r / 3 = c / 3 then Vc r c + (Vo.getD (r / 3) fun _ _ => 0) (r % 3) (c % 3) else Vc r c

/-- the columns of all the points, as one (3N,Nstate) array -/
def flatDb (n : Nat) (cols : List Cols) : Mem := fun i =>
  let row := (i / n).toNat
  pick3 ((cols.getD (row / 3) fun _ => ⟨0, 0, 0⟩) (i % n)) (row % 3)

/-- a slice, with the noise propagated: the point, dp_triangulated_dq, dp_triangulated_db -/
abbrev Prop1 := P3 × (Nat → P3) × Option Cols

/-- the loop in `_triangulation_uncertainty_internal()` triangulation.py:1442-1599 -/
noncomputable def propagateSlice (method : Method) (stabilize : Bool) (inputs : Option Problem) (s : Slice) : Option Prop1 :=
  match inputs with
  | none => (gradSimple method s).map fun r => (r.1, r.2, none)
  | some P => (gradFull method s).bind fun f => (dpDb P s f stabilize).map fun F => (f.c.p, f.dq, some F)

open Classical in
/-- `Var_p_calibration` triangulation.py:1948-1989 -/
noncomputable def varCal (C : Cholmod) (eigsh : Eigsh) (q_calibration_stdev : Option ℝ) (inputs : Option Problem) (results : List Prop1) : Option (Option (Nat → Nat → ℝ)) :=
  match inputs with
  | none => some (if q_calibration_stdev = some 0 then some (fun _ _ => 0) else none)
  | some P =>
    match propagate C eigsh "covariance" (P.ctx (ProjUnc.bPacked P)) (3 * results.length) (flatDb (numStates P.d).toNat (results.filterMap fun r => r.2.2))
        (q_calibration_stdev.filter fun s => decide (0 < s)) with
    | some (.matrix V) => some (some V)
    | _ => none

/-- the noise-free path: triangulation.py:1862-1903 -/
noncomputable def noiseless (slices : List Slice) (q_calibration_stdev q_observation_stdev : Option ℝ) (method : Method) : Option Ret :=
  (slices.mapM (plain method)).map fun p =>
    let zeros := slices.map fun _ => fun (_ _ : Nat) => (0 : ℝ)
    match q_calibration_stdev, q_observation_stdev with
    | none, none => .point p
    | some _, none => .calibration p fun _ _ => 0
    | none, some _ => .observation p zeros
    | some _, some _ => .all p (fun _ _ => 0) zeros fun _ _ => 0

open Classical in
/-- the rest: triangulation.py:1907-2018 -/
noncomputable def noisy (C : Cholmod) (eigsh : Eigsh) (slices : List Slice) (q_calibration_stdev q_observation_stdev : Option ℝ) (corr : ℝ) (method : Method) (stabilize : Bool) : Option Ret :=
  (if q_calibration_stdev ≠ none ∧ q_calibration_stdev ≠ some 0 then (inputsOf slices).map some else some none).bind fun inputs =>
  (slices.mapM (propagateSlice method stabilize inputs)).bind fun results =>
  (varCal C eigsh q_calibration_stdev inputs results).bind fun vcal =>
    let p := results.map fun r => r.1
    let vobs := q_observation_stdev.map fun σ => results.map fun r => varObs r.2.1 (varQ σ corr)
    match vcal, vobs with
    | some Vc, none => some (.calibration p Vc)
    | none, some Vo => some (.observation p Vo)
    | some Vc, some Vo => some (.all p Vc Vo (joint Vc Vo))
    | none, none => none

open Classical in
/-- `triangulate()` triangulation.py:1616-2018 -/
noncomputable def triangulate (C : Cholmod) (eigsh : Eigsh) (slices : List Slice) (q_calibration_stdev q_observation_stdev : Option ℝ) (corr : ℝ) (method : Method) (stabilize : Bool) : Option Ret :=
  if ∃ s, q_observation_stdev = some s ∧ s < 0 then none
  else if (q_calibration_stdev = none ∨ q_calibration_stdev = some 0) ∧ (q_observation_stdev = none ∨ q_observation_stdev = some 0) then
    noiseless slices q_calibration_stdev q_observation_stdev method
  else noisy C eigsh slices q_calibration_stdev q_observation_stdev corr method stabilize

end Mrcal.TriPy
