import Verif.Model.Uncertainty
import Verif.Model.Propagate
import Verif.Model.ProjectApi
import Verif.Model.CallbackValues
/-
`projection_uncertainty()` mrcal/model_analysis.py:1192-1517, with `_dq_db__projection_uncertainty()` (939-1188) and `_dq_db__Kunpacked_rrp()` (873-936).

The optimization inputs are a `Problem`; `P.seed` has the values at the optimum: that's what's stored in the camera model. Every optional input is given (maybe as an empty array), and so are
the do_optimize_... flags. Broadcasting isn't modelled: this is one point p_cam. Exceptions are `none`.
-/
namespace Mrcal.ProjUnc
open Mrcal Mrcal.Callback Mrcal.Pack Mrcal.Propagate Mrcal.Uncertainty Mrcal.Pose

/-- a (2,Nstate) array -/
abbrev Grad := Nat → Int → ℝ

/-- `pack_solver_state()` as called by `mrcal_optimizer_callback()` mrcal.c:6159-6169. Each element is written -/
noncomputable def bPacked (P : Problem) : Mem := (packState P.d P.seed fun _ => 0).1

/-- `Kunpacked_cross_reprojection` model_analysis.py:1378-1382, 1440-1444. The function is the one in mrcal-pywrap.c:1895-2110: it evaluates the optimizer callback first. `pack_state()` works in place -/
noncomputable def kUnpacked (L : Lapack) (P : Problem) (icam : Int) : Option (Nat → Int → ℝ) := do
  let b := bPacked P
  let c := P.ctx b
  let out ← optimizerCallback c
  let K ← drtCrossReprojection L c.d c.W c.H c.points.length icam b (numStates c.d) (numStates c.d) (csrOf out).Jp (csrOf out).Ji (csrOf out).Jx
  let n := (numStates c.d).toNat
  let flat ← packUnpackArray true c.d (6 * n) n fun i => K (i / n).toNat (i % n)
  some fun i j => flat (i * n + j)

/-- `intrinsics_data` model_analysis.py:1326 -/
def intrinsicsData (P : Problem) (icam k : Int) : ℝ := if 0 ≤ k ∧ k < P.d.lens.numParams then P.seed (.intr (icam * P.d.lens.numParams + k)) else 0

/-- `dq_dpcam`, `dq_dintrinsics` -/
structure PixGrad where
  dp : Nat → P3
  di : Nat → Nat → ℝ

/-- `mrcal.project(..., get_gradients = True)` model_analysis.py:1050-1052, 1391-1393 -/
noncomputable def projectGrad (P : Problem) (icam : Int) (p : P3) : Option PixGrad :=
  (Cam.mrcalProject P.d.lens (intrinsicsData P icam) 1 (fun _ => p) true true ⟨fun _ => ⟨0, 0⟩, fun _ => ⟨0, 0, 0⟩, fun _ => 0⟩).map fun m =>
    ⟨m.dp, fun r c => m.di (r * P.d.lens.numParams.toNat + c)⟩

/-- `slice_intrinsics_state`, `slice_intrinsics_arg` model_analysis.py:1328-1342: where each begins; both have num_intrinsics_optimization_params() elements. `none`: not optimized -/
def sliceIntrinsics (P : Problem) (icam : Int) : Option (Int × Nat) :=
  let istate := stateIndexIntrinsics icam P.d
  if istate ≥ 0 then some (istate, if P.d.sel.core = false ∧ P.d.lens.hasCore = true then 4 else 0) else none

/-- `dq_db = zeros; dq_db[...,slice_intrinsics_state] = dq_dintrinsics[...,slice_intrinsics_arg]` model_analysis.py:1054-1056, 1395-1397 -/
def intrinsicsCols (P : Problem) (g : PixGrad) (sl : Option (Int × Nat)) : Grad := fun r c =>
  match sl with
  | some (istate, arg) => if istate ≤ c ∧ c < istate + numIntrinsicsOpt P.d.sel P.d.lens then g.di r (arg + (c - istate).toNat) else 0
  | none => 0

/-- `skew_symmetric()` poseutils-genpywrap.py:1099-1165 -/
def skew (p : P3) : M3 := ⟨0, -p.z, p.y, p.z, 0, -p.x, -p.y, p.x, 0⟩

/-- `dq_db += dq_dp skew(p) K[:3]; if not atinfinity: dq_db -= dq_dp K[3:]` model_analysis.py:924-936, 1399-1411 -/
def addK (g : Nat → P3) (p : P3) (K : Nat → Int → ℝ) (atinfinity : Bool) (F : Grad) : Grad := fun r c =>
  let v := vecMul (g r) (skew p)
  let f := F r c + (v.x * K 0 c + v.y * K 1 c + v.z * K 2 c)
  if !atinfinity then f - ((g r).x * K 3 c + (g r).y * K 4 c + (g r).z * K 5 c) else f

/-- `method == 'cross-reprojection-ccp'` model_analysis.py:1347-1411 -/
noncomputable def gradCcp (L : Lapack) (P : Problem) (icam : Int) (atinfinity : Bool) (p : P3) : Option Grad := do
  let K ← kUnpacked L P icam
  let g ← projectGrad P icam p
  some (addK g.dp p K atinfinity (intrinsicsCols P g (sliceIntrinsics P icam)))

/-- `np.unique(icice[icice[:,0] == icam_intrinsics, 1])` model_analysis.py:1460-1466. Triangulated points are ignored -/
def camExtrinsics (P : Problem) (icam : Int) : List Int :=
  let icice := P.boards.map (fun o => (o.icamI, o.icamE)) ++ P.points.map (fun o => (o.icamI, o.icamE))
  (((icice.filter fun p => p.1 = icam).map Prod.snd).dedup).mergeSort fun a b => decide (a ≤ b)

/-- `rt_cam_ref`, and where `slice_extrinsics_state` begins. model_analysis.py:1466-1495, 1020-1026. `state_index_extrinsics()` returns None if the extrinsics aren't optimized; adding a number
to that is an error -/
def camPoses (P : Problem) (icam : Int) : Option (List RtV × Option Int) :=
  match camExtrinsics P icam with
  | [] => none
  | e :: l =>
    if ¬ List.IsChain (fun a b : Int => b - a = 1) (e :: l) then none
    else if e < 0 then
      if l = [] then some ([identityrt], none) else none
    else if stateIndexExtrinsics e P.d ≥ 0 then some ((e :: l).map fun i => poseAt P.seed (.cam i), some (stateIndexExtrinsics e P.d))
    else none

/-- one point, transformed with one pose: `p_ref` model_analysis.py:1038-1046, `p_frames` 1113-1117, 1130-1133 -/
noncomputable def toPose (T : RtV) (atinfinity : Bool) (p : P3) : P3 :=
  if !atinfinity then (transformPointrt T p true false false).x else (rotatePointr (negP T.r) p false false false).x

/-- the gradients with respect to r, t, p; t isn't used at infinity: model_analysis.py:1058-1069, 1119-1125, 1135-1141 -/
noncomputable def poseGrad (T : RtV) (atinfinity : Bool) (p : P3) : M3 × M3 × M3 :=
  if !atinfinity then
    let o := transformPointrt T p false true true
    ((o.Jrt.getD (identityR, identityR)).1, (o.Jrt.getD (identityR, identityR)).2, o.Jx.getD identityR)
  else
    let o := rotatePointr T.r p false true true
    (o.Jr.getD identityR, identityR, o.Jx.getD identityR)

/-- element k of (a row vector) (J_r J_t) -/
noncomputable def rtElement (v : P3) (J : M3 × M3 × M3) (k : Nat) : ℝ := if k < 3 then pick3 (vecMul v J.1) k else pick3 (vecMul v J.2.1) (k - 3)

/-- the k-th of the six columns of a pose is written: all if not at infinity, [...,:3] otherwise -/
def written (atinfinity : Bool) (k : Nat) : Bool := !atinfinity || decide (k < 3)

/-- `dq_db[..., slice_extrinsics_state] = ` model_analysis.py:1071-1099 -/
noncomputable def extrinsicsCols (rts : List RtV) (istate : Option Int) (g : Nat → P3) (atinfinity : Bool) (p : P3) (F : Grad) : Grad := fun r c =>
  match istate with
  | none => F r c
  | some i0 =>
    let k := (c - i0).toNat
    let T := rts.getD (k / 6) identityrt
    if i0 ≤ c ∧ c < i0 + rts.length * 6 ∧ written atinfinity (k % 6) = true then
      rtElement (g r) (poseGrad T atinfinity (toPose T atinfinity p)) (k % 6) / rts.length
    else F r c

/-- `dq_db[..., istate_frames0 : istate_frames0 + Nframes*6] = ` model_analysis.py:1102-1168: the mean over the camera poses, divided by the number of frames -/
noncomputable def framesCols (P : Problem) (rts : List RtV) (g : Nat → P3) (atinfinity : Bool) (p : P3) (F : Grad) : Grad := fun r c =>
  let i0 := stateIndexFrames 0 P.d
  if i0 ≥ 0 then
    let k := (c - i0).toNat
    let T := poseAt P.seed (.frame (k / 6 : Nat))
    if i0 ≤ c ∧ c < i0 + P.d.Nframes * 6 ∧ written atinfinity (k % 6) = true then
      ((rts.map fun Tc =>
        let pref := toPose Tc atinfinity p
        let dq_dpref := vecMul (g r) (poseGrad Tc atinfinity pref).2.2
        rtElement dq_dpref (poseGrad T atinfinity (toPose T atinfinity pref)) (k % 6)).sum / rts.length) / P.d.Nframes
    else F r c
  else F r c

/-- `Kunpacked_cross_reprojection`, and the checks for "mean-pcam": model_analysis.py:1420-1457. `points` (line 1451) doesn't exist -/
noncomputable def oldK (L : Lapack) (P : Problem) (method : String) : Option (Nat → Int → ℝ) :=
  if method = "cross-reprojection-rrp-Jfp" then kUnpacked L P (-1)
  else if P.d.sel.frames = true ∧ (P.points ≠ [] ∨ P.tri ≠ [] ∨ P.d.Nframes ≤ 0) then none
  else some fun _ _ => 0

/-- everything after `method == 'cross-reprojection-ccp'`: model_analysis.py:1420-1511. If the intrinsics aren't optimized, `slice_intrinsics_arg` (line 1506) doesn't exist -/
noncomputable def gradOld (L : Lapack) (P : Problem) (method : String) (icam : Int) (atinfinity : Bool) (p : P3) : Option Grad := do
  let K ← oldK L P method
  let (rts, istate) ← camPoses P icam
  let sl ← sliceIntrinsics P icam
  let g ← projectGrad P icam p
  let F := extrinsicsCols rts istate g.dp atinfinity p (intrinsicsCols P g (some sl))
  if method = "mean-pcam" then some (framesCols P rts g.dp atinfinity p F)
  else
    -- `_dq_db__Kunpacked_rrp()`
    match rts with
    | [T] =>
      let pref := toPose T atinfinity p
      some (addK (fun r => vecMul (g.dp r) (poseGrad T atinfinity pref).2.2) pref K atinfinity F)
    | _ => none

/-- `dq_db` -/
noncomputable def grad (L : Lapack) (P : Problem) (method : String) (icam : Int) (atinfinity : Bool) (p : P3) : Option Grad :=
  if method ∉ ["mean-pcam", "cross-reprojection-rrp-Jfp", "cross-reprojection-ccp"] then none
  else if ¬ (0 ≤ icam ∧ icam < P.d.Nci) then none
  else if method = "cross-reprojection-ccp" then gradCcp L P icam atinfinity p
  else gradOld L P method icam atinfinity p

/-- `projection_uncertainty()` -/
noncomputable def projectionUncertainty (L : Lapack) (C : Cholmod) (eigsh : Eigsh) (P : Problem) (icam : Int) (method : String) (atinfinity : Bool) (what : String)
    (observed_pixel_uncertainty : Option ℝ) (p : P3) : Option Res := do
  let F ← grad L P method icam atinfinity p
  let n := (numStates P.d).toNat
  propagate C eigsh what (P.ctx (bPacked P)) 2 (fun i => F (i / n).toNat (i % n)) observed_pixel_uncertainty

end Mrcal.ProjUnc
