import Verif.Model.ProjUncertainty
import Verif.Model.Project
import Verif.Model.ProjectApi
/-
`mrcal.hypothesis_board_corner_positions()` mrcal/utils.py:440-584 and `mrcal.make_perfect_observations()` mrcal/synthetic_data.py:594-750.

The optimization inputs are a `Problem`, as in Model/ProjUncertainty.lean. Arithmetic is exact. An (H,W) array is a list of H*W elements: corner k is in column k%W, row k/W. `none`: an exception.
-/
namespace Mrcal.Perfect
open Mrcal Mrcal.Pose Mrcal.Callback Mrcal.Pack Mrcal.Propagate Mrcal.ProjUnc

/-- numpy indexing along an axis of length n: negative indices count from the end; others raise IndexError -/
def pyIndex (n i : Int) : Option Int := if 0 ≤ i ∧ i < n then some i else if -n ≤ i ∧ i < 0 then some (n + i) else none

/-- `Rt_ref_frame` for one observation: utils.py:544-546 -/
noncomputable def RtFrame (P : Problem) (iframe : Int) : Option Rt := (pyIndex P.d.Nframes iframe).map fun i => Rt_from_rt (poseAt P.seed (.frame i))

/-- `Rt_cam_ref` for one observation: utils.py:547-551, synthetic_data.py:692-696 -/
noncomputable def RtCam (P : Problem) (icam : Int) : Option Rt :=
  (pyIndex (P.d.Nce + 1) (icam + 1)).map fun i => if i = 0 then identityRt else Rt_from_rt (poseAt P.seed (.cam (i - 1)))

/-- `full_object` utils.py:535-543 -/
noncomputable def fullObject (P : Problem) (k : Nat) : P3 :=
  Project.refObject P.W P.H P.spacing P.spacing (if P.warpGiven then some ⟨P.seed (.warp 0), P.seed (.warp 1)⟩ else none) 0 none none 0 none none (k % P.W) (k / P.W)

/-- `p_cam_calobjects` for one observation: utils.py:544-557 -/
noncomputable def boardPoints (P : Problem) (o : BoardObs) : Option (List P3) := do
  let Rt_ref_frame ← RtFrame P o.iframe
  let Rt_cam_ref ← RtCam P o.icamE
  let Rt_cam_frame := composeRt Rt_cam_ref Rt_ref_frame false false
  some ((List.range (P.W * P.H)).map fun k => transformPointRt Rt_cam_frame (fullObject P k) false)

/-- `p[idx, ...]` with an array of booleans: the selected elements, in order -/
def select (p : List (List P3)) (idx : List (List Bool)) : List P3 := (p.flatten.zip idx.flatten).filterMap fun x => if x.2 then some x.1 else none

/-- what's returned; and the contents of the `idx_inliers` array afterwards, which might be an array the caller passed in -/
structure Hypothesis where
  all : List (List P3)
  camera : List (List P3)
  inliers : List P3
  outliers : List P3
  idx : List (List Bool)

/-- `idx[~idx_observations] = False` utils.py:577-578 -/
def clear (obs : List Bool) (idx : List (List Bool)) : List (List Bool) := List.zipWith (fun b row => if b then row else row.map fun _ => false) obs idx

open Classical in
/-- `idx_inliers` utils.py:560-561 -/
noncomputable def inlierMask (P : Problem) : List (List Bool) := P.boards.map fun o => (List.range (P.W * P.H)).map fun k => decide (0 < o.weight k)

open Classical in
/-- `hypothesis_board_corner_positions` utils.py:440-584. Simplified: observations_board is given. A mask of the wrong shape raises IndexError -/
noncomputable def hypothesisBoard (P : Problem) (icam : Option Int) (idx_inliers : Option (List (List Bool))) : Option Hypothesis := do
  let p ← P.boards.mapM (boardPoints P)
  let inl := idx_inliers.getD (inlierMask P)
  if inl.map List.length ≠ p.map List.length then none
  else
    let outl := inl.map fun row => row.map fun b => !b
    match icam with
    | none => some ⟨p, p, select p inl, select p outl, inl⟩
    | some icam =>
      let obs := P.boards.map fun o => decide (o.icamI = icam)
      let inl := clear obs inl
      let outl := clear obs outl
      some ⟨p, (p.zip obs).filterMap (fun x => if x.2 then some x.1 else none), select p inl, select p outl, inl⟩

/-- `mrcal.project()` for one point. `intrinsics`: `optimization_inputs['intrinsics'][icam]` -/
noncomputable def project1 (P : Problem) (icam : Int) (p : P3) : Option P2 := do
  let i ← pyIndex P.d.Nci icam
  let m ← Cam.mrcalProject P.d.lens (intrinsicsData P i) 1 (fun _ => p) false false ⟨fun _ => ⟨0, 0⟩, fun _ => ⟨0, 0, 0⟩, fun _ => 0⟩
  some (m.q 0)

/-- the perfect pixels of the corners of a board: synthetic_data.py:671-679 -/
noncomputable def setBoard (P : Problem) (op : BoardObs × List P3) : Option BoardObs := do
  let q ← op.2.mapM (project1 P op.1.icamI)
  some { op.1 with obs := fun k xy => match q[k]? with
    | some q => pick2 q xy
    | none => op.1.obs k xy }

/-- the perfect pixel of a point: synthetic_data.py:688-706 -/
noncomputable def setPoint (P : Problem) (o : PointObs) : Option PointObs := do
  let i ← pyIndex P.d.Npoints o.ipoint
  let pref : P3 := ⟨P.seed (.point i 0), P.seed (.point i 1), P.seed (.point i 2)⟩
  let Rt_cam_ref ← RtCam P o.icamE
  let q ← project1 P o.icamI (transformPointRt Rt_cam_ref pref false)
  some { o with obs := fun xy => pick2 q xy }

open Classical in
/-- synthetic_data.py:745-747. `nps.dummy()` returns a view: this is stored in the observations -/
noncomputable def fixWeight (w : ℝ) : ℝ := if w ≤ 0 then 1 else w

/-- synthetic_data.py:741-750. `n` is what randn() returned -/
noncomputable def noiseBoard (σ : ℝ) (n : Nat → Nat → ℝ) (o : BoardObs) : BoardObs :=
  { o with weight := fun k => fixWeight (o.weight k), obs := fun k xy => o.obs k xy + σ * n k xy / fixWeight (o.weight k) }

/-- the same for observations_point -/
noncomputable def noisePoint (σ : ℝ) (n : Nat → ℝ) (o : PointObs) : PointObs :=
  { o with weight := fixWeight o.weight, obs := fun xy => o.obs xy + σ * n xy / fixWeight o.weight }

/-- the perfect observations, without noise: synthetic_data.py:667-706 -/
noncomputable def noiseless (P : Problem) : Option Problem := do
  let boards ← if P.boards = [] then some P.boards else do
    let pcam ← (hypothesisBoard P none none).map Hypothesis.all
    (P.boards.zip pcam).mapM (setBoard P)
  let points ← P.points.mapM (setPoint P)
  some { P with boards := boards, points := points }

open Classical in
/-- `make_perfect_observations` synthetic_data.py:594-750: the inputs afterwards. `nb`, `np`: what randn() returned for the boards and for the points -/
noncomputable def makePerfect (P : Problem) (observed_pixel_uncertainty : Option ℝ) (nb : Nat → Nat → Nat → ℝ) (np : Nat → Nat → ℝ) : Option Problem := do
  let out ← optimizerCallback (P.ctx (bPacked P))
  let σ ← observed_pixel_uncertainty.or (observedPixelUncertainty (P.ctx (bPacked P)) out.x)
  let P' ← noiseless P
  if σ = 0 then some P'
  else some { P' with
    boards := P'.boards.zipIdx.map fun oi => noiseBoard σ (nb oi.2) oi.1
    points := P'.points.zipIdx.map fun oi => noisePoint σ (np oi.2) oi.1 }

end Mrcal.Perfect
