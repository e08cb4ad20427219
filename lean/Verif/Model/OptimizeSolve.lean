import Verif.Model.CallbackValues
import Verif.Model.Outliers
/-
The whole of `mrcal_optimize()` mrcal.c:6180-6624 and of `mrcal_optimizer_callback()` mrcal.c:5972-6177: the checks, the solve/reject loop, what comes back. The
cost function is `optimizerCallback` (Callback.lean, CallbackValues.lean), the packing is Pack.lean, the outlier rejection is Outliers.lean.

libdogleg is not modelled: `Solver` is any function, and what is assumed about it is stated in the theorems.

Simplifications: calibration_object_width_n, calibration_object_height_n are not negative. The messages are not modelled; neither are the verbose
reports (mrcal.c:6501-6599), which change nothing. `double` is ℝ.
-/
namespace Mrcal.Solve
open Mrcal Mrcal.Pack Mrcal.Callback Mrcal.Pose

/-- what `dogleg_optimize2()` leaves: `packed_state` and `solver_context->beforeStep->p` (libdogleg copies one to the other), `solver_context->beforeStep->x`,
and the returned value -/
structure Sol where
  p : Mem
  x : List ℝ
  norm2 : ℝ

/-- `dogleg_optimize2()`: the cost function, the initial packed_state. none: the returned value is negative -/
abbrev Solver := (Mem → Option (List ℝ)) → Mem → Option Sol

/-- `x` after `optimizer_callback(packed_state, x, Jt, ctx)` -/
noncomputable def evaluate (P : Problem) (b : Mem) : Option (List ℝ) := (optimizerCallback (P.ctx b)).map fun out => out.x

/-- what the outlier rejection may change: `observations_board_pool[].z`, all the observations in order, and `observations_point_triangulated[].outlier` -/
def obsOf (P : Problem) : Outliers.Obs where
  weights := P.boards.flatMap fun o => (List.range (P.W * P.H)).map o.weight
  flags := fun i => if i < 0 then false else (P.tri[i.toNat]?.map fun o => o.outlier).getD false

/-- the problem after these were changed -/
def setObs (P : Problem) (o : Outliers.Obs) : Problem :=
  { P with
    boards := P.boards.zipIdx.map fun oi =>
      { oi.1 with weight := fun ipt => if ipt < P.W * P.H then o.weights.getD (oi.2 * (P.W * P.H) + ipt) 0 else oi.1.weight ipt }
    tri := P.tri.zipIdx.map fun oi => { oi.1 with outlier := o.flags oi.2 } }

/-- the camera of a triangulated observation, in `rt_cam_ref`: none if at the reference -/
def camIn (P : Problem) (i : Int) : Option RtV :=
  let icam := (P.tri[i.toNat]?.map fun o => o.icamE).getD (-1)
  if icam < 0 then none else some (poseAt P.seed (.cam icam))

/-- mrcal.c:4131-4212: `v0_cam1`, `t_10`. If both cameras are at the reference then C dereferences NULL: here t_10 is 0 -/
noncomputable def raysIn (c0 c1 : Option RtV) (v0 : P3) : P3 × P3 :=
  let v0ref := match c0 with
    | some c => (rotatePointr c.r v0 true false false).x
    | none => v0
  let tr0 := c0.map fun c =>
    let t := (rotatePointr c.r c.t true false false).x
    (⟨t.x * (-1), t.y * (-1), t.z * (-1)⟩ : P3)
  match c1, tr0 with
  | some c, some t => ((rotatePointr c.r v0ref false false false).x, (transformPointrt c t false false false).x)
  | some c, none => ((rotatePointr c.r v0ref false false false).x, c.t)
  | none, some t => (v0ref, t)
  | none, none => (v0ref, ⟨0, 0, 0⟩)

open Classical in
/-- mrcal.c:4131-4213: the test for converging rays. `P.seed` has the `rt_cam_ref` that `markOutliers()` is given (mrcal.c:6472): the array mrcal_optimize() was called with,
not the solution so far, which is in packed_state only -/
noncomputable def convergentIn (P : Problem) (i0 i1 : Int) : Bool :=
  let r := raysIn (camIn P i0) (camIn P i1) (P.triV i0.toNat)
  decide (Tri.isConvergent (P.triV i1.toNat) r.1 r.2)

/-- the call of `markOutliers()` mrcal.c:6458-6473, with the indexing of the measurements mrcal.c:4031-4061. The two indices are -1 if there's nothing to
index: nothing is read then -/
noncomputable def rejection (P : Problem) (pairs : List (Int × Int)) (x : List ℝ) : Outliers.Problem where
  x := fun i => x.getD (measurementIndexBoards 0 P.d.Nob P.W P.H + i).toNat 0
  pairs := pairs
  xt := fun i => x.getD (((measurementIndexTri 0 P.d.Nob P.points.length P.tri P.W P.H).getD (-1)) + i).toNat 0
  convergent := convergentIn P

/-- what the loop leaves -/
structure LoopOut where
  sol : Option Sol
  obs : Outliers.Obs
  noutBoard : Int
  noutTri : Int

/-- the do/while loop mrcal.c:6430-6481: from packed_state, the marked outliers, the two counts -/
inductive Loop (solver : Solver) (P : Problem) (pairs : List (Int × Int)) : Mem → Outliers.Obs → Int → Int → LoopOut → Prop
  /-- norm2_error < 0 -/
  | failed (b o nb nt) : solver (evaluate (setObs P o)) b = none → Loop solver P pairs b o nb nt ⟨none, o, nb, nt⟩
  /-- !do_apply_outlier_rejection -/
  | single (b o nb nt s) : solver (evaluate (setObs P o)) b = some s → P.d.sel.outlierRejection = false → Loop solver P pairs b o nb nt ⟨some s, o, nb, nt⟩
  /-- no new outliers -/
  | stop (b o nb nt s m) : solver (evaluate (setObs P o)) b = some s → P.d.sel.outlierRejection = true →
      m = Outliers.markOutliers (rejection P pairs s.x) o → m.found = false → Loop solver P pairs b o nb nt ⟨some s, m.obs, m.noutBoard, m.noutTri⟩
  /-- going again -/
  | again (b o nb nt s m r) : solver (evaluate (setObs P o)) b = some s → P.d.sel.outlierRejection = true →
      m = Outliers.markOutliers (rejection P pairs s.x) o → m.found = true → Loop solver P pairs s.p m.obs m.noutBoard m.noutTri r → Loop solver P pairs b o nb nt r

/-- the selections after mrcal.c:6249-6258, 6277-6278; and 6054-6066 -/
def effSel (d : Dims) : Sel := { d.sel with warp := d.sel.warp && decide (d.Nob > 0), core := d.sel.core && d.lens.hasCore }
def effective (P : Problem) : Problem := { P with d := { P.d with sel := effSel P.d } }

/-- mrcal.c:6249-6271; 6043-6063 -/
def badArguments (P : Problem) : Bool :=
  (decide (P.d.Nob > 0) && P.d.sel.warp && !P.warpGiven) ||
  (!P.tri.isEmpty && !(!P.d.sel.core && !P.d.sel.distortions && P.d.sel.extrinsics))

/-- `mrcal_num_measurements()`. none: reads past the end of the triangulated observations -/
def numMeas (P : Problem) : Option Int := numMeasurements P.d P.points.length P.tri P.W P.H

/-- the arguments of `mrcal_optimize()`. The sizes of the two buffers are in bytes; none: NULL -/
structure Call where
  P : Problem
  bufB : Option Int
  bufX : Option Int
  checkGradient : Bool

/-- `rms_reproj_error__pixels`. `sqrt(-1/N)` and `sqrt(0/0)` are NaN -/
inductive Rms
  | minus1
  | nan
  | val (r : ℝ)

/-- what the caller sees after `mrcal_optimize()`: the statistics, the arrays, the observations, the two buffers (none: NULL, or nothing written) -/
structure Ret where
  rms : Rms
  noutBoard : Int
  noutTri : Int
  arrays : Params
  obs : Outliers.Obs
  bFinal : Option Mem
  xFinal : Option (List ℝ)

inductive Result
  /-- reads past the end of the triangulated observations -/
  | outOfBounds
  /-- dereferences NULL -/
  | nullDereference
  | ret (r : Ret)

/-- `return (mrcal_stats_t){.rms_reproj_error__pixels = -1.0}` -/
def refused (c : Call) : Result := .ret ⟨.minus1, 0, 0, c.P.seed, obsOf c.P, none, none⟩

/-- everything before the loop, and the check_gradient case: mrcal.c:6249-6408, 6601-6617. none: proceed to the loop.

With check_gradient, `solver_context` stays NULL, norm2_error stays -1 -/
def before (c : Call) : Option Result :=
  if badArguments c.P then some (refused c)
  else
    let P := effective c.P
    match numMeas P with
    | none => some .outOfBounds
    | some N =>
      if c.bufB.any fun size => decide (size ≠ numStates P.d * 8) then some (refused c)
      else if c.bufX.any fun size => decide (size ≠ N * 8) then some (refused c)
      else if c.checkGradient then
        if c.bufB.isSome || c.bufX.isSome then some .nullDereference
        else some (.ret ⟨.nan, 0, 0, c.P.seed, obsOf c.P, none, none⟩)
      else none

open Classical in
/-- everything after the loop mrcal.c:6487-6623 -/
noncomputable def finish (c : Call) (N : Int) (r : LoopOut) : Result :=
  match r.sol with
  | none => .ret ⟨.minus1, r.noutBoard, r.noutTri, c.P.seed, r.obs, none, none⟩
  | some s => .ret
    { rms := if N = 0 then .nan else .val (Real.sqrt (s.norm2 / N))
      noutBoard := r.noutBoard
      noutTri := r.noutTri
      arrays := (unpackState (effective c.P).d s.p c.P.seed).1
      obs := r.obs
      bFinal := c.bufB.map fun _ => s.p
      xFinal := c.bufX.map fun _ => s.x }

/-- the packed_state the loop starts with mrcal.c:6397-6408. What was on the stack before doesn't matter: `junk` -/
noncomputable def start (P : Problem) (junk : Mem) : Mem := (packState P.d P.seed junk).1

/-- `mrcal_optimize()` -/
inductive Optimize (solver : Solver) (c : Call) (junk : Mem) : Result → Prop
  | early (r) : before c = some r → Optimize solver c junk r
  | solve (pairs N r) : before c = none → triPairs 0 c.P.tri = some pairs → numMeas (effective c.P) = some N →
      Loop solver (effective c.P) pairs (start (effective c.P) junk) (obsOf c.P) (Outliers.initialCount (obsOf c.P)) 0 r → Optimize solver c junk (finish c N r)

/-- `mrcal_optimizer_callback()` mrcal.c:5972-6177: what is in b_packed and in x. The outer none: returned false. The inner none: reads past the end of the triangulated
observations. `junk`: what was in b_packed before -/
noncomputable def callback (P : Problem) (bufB bufX : Int) (junk : Mem) : Option (Option (Mem × List ℝ)) :=
  if badArguments P then none
  else
    let P := effective P
    if !P.d.sel.core && !P.d.sel.distortions && !P.d.sel.extrinsics && !P.d.sel.frames && !P.d.sel.warp then none
    else if bufB ≠ numStates P.d * 8 then none
    else match numMeas P with
      | none => some none
      | some N =>
        if bufX ≠ N * 8 then none
        else some ((evaluate P (start P junk)).map fun x => (start P junk, x))

/-! ### the python wrappers -/

/-- `mrcal.optimize()`, `mrcal.optimizer_callback()` mrcal-pywrap.c:1790-1799: both buffers are allocated, with the sizes mrcal_num_states() and mrcal_num_measurements() report
with the selections as given -/
def pySizes (P : Problem) : Option (Int × Int) := (numMeas P).map fun N => (numStates P.d * 8, N * 8)

/-- mrcal-pywrap.c:1809-1842 -/
def pyCall (P : Problem) : Option Call := (pySizes P).map fun s => ⟨P, some s.1, some s.2, false⟩

/-- the arguments as python sees them after `mrcal.optimize()`: the arrays and observations_board are written in place; the c_observations_point_triangulated array is made on
entry from the weights in observations_point_triangulated (mrcal-pywrap.c:1757-1762, 1401), and is not copied back -/
noncomputable def pyAfter (P : Problem) (r : Ret) : Problem := { setObs P ⟨r.obs.weights, (obsOf P).flags⟩ with seed := r.arrays }

end Mrcal.Solve
