import Verif.Model.Measurements
import Mathlib.Analysis.Real.Sqrt
/-
Outlier rejection: mrcal.c:3972-4402 (markOutliers), and the solve/reject loop of mrcal_optimize
mrcal.c:6412-6474; mrcal_corresponding_icam_extrinsics mrcal.c:3883-3969.
-/
namespace Mrcal.Outliers
open Mrcal

/-- What outlier rejection can change: the weights of the board corners (the `z` of
`observations_board_pool`, in order), and the `outlier` bits of the triangulated observations. -/
structure Obs where
  weights : List ℝ
  flags : Int → Bool

/-- What outlier rejection looks at, but does not change.
Simplification: the triangulated loops (LOOP_TRIANGULATED_POINT0/1 mrcal.c:4071-4094) are walked as the list
of pairs `(i0,i1)` they visit. That list depends on the `last_in_set` bits only (`triPairs` of
Model/Measurements.lean), and these don't change here; `imeasurement_point_triangulated` is the position in
that list. `convergent i0 i1` stands for the result of the ray computation mrcal.c:4140-4216. -/
structure Problem where
  /-- `x_boards` -/
  x : Nat → ℝ
  pairs : List (Int × Int)
  /-- `x_point_triangulated` -/
  xt : Nat → ℝ
  convergent : Int → Int → Bool

/-- `k0` mrcal.c:4022 -/
noncomputable def k0 : ℝ := 4.0
/-- `k1` mrcal.c:4023 -/
noncomputable def k1 : ℝ := 5.0

/-- accumulators of the first loops -/
structure Acc where
  nOut : Int
  nIn : Int
  var : ℝ

open Classical in
/-- body of the first board loop mrcal.c:4108-4126. `wi` is the weight and `i_pt_board`. -/
noncomputable def boardVar (x : Nat → ℝ) (a : Acc) (wi : ℝ × Nat) : Acc :=
  if wi.1 ≤ 0 then { a with nOut := a.nOut + 1 }
  else
    let dx := x (2 * wi.2 + 0)
    let dy := x (2 * wi.2 + 1)
    { a with var := a.var + (dx * dx + dy * dy), nIn := a.nIn + 1 }

/-- `arr[i] = true` -/
def setFlag (flags : Int → Bool) (i : Int) : Int → Bool := fun j => if j = i then true else flags j

/-- state of the first triangulated loop -/
structure TriAcc where
  flags : Int → Bool
  found : Bool
  nOut : Int
  nIn : Int
  var : ℝ

/-- body of the first triangulated loop mrcal.c:4167-4242. `pi` is (i0,i1) and
`imeasurement_point_triangulated`. -/
noncomputable def triVar (p : Problem) (a : TriAcc) (pi : (Int × Int) × Nat) : TriAcc :=
  let i0 := pi.1.1
  let i1 := pi.1.2
  let a :=
    if a.flags i0 || a.flags i1 then a
    else if !p.convergent i0 i1 then
      { a with flags := setFlag (setFlag a.flags i0) i1, found := true }
    else a
  if a.flags i0 || a.flags i1 then { a with nOut := a.nOut + 1 }
  else { a with var := a.var + p.xt pi.2 * p.xt pi.2, nIn := a.nIn + 1 }

open Classical in
/-- the test in the second and third board loops: mrcal.c:4262-4277 (k1), 4333-4342 (k0) -/
noncomputable def boardExceeds (x : Nat → ℝ) (k var : ℝ) (i : Nat) : Bool :=
  decide (x (2 * i + 0) * x (2 * i + 0) > k * k * var) || decide (x (2 * i + 1) * x (2 * i + 1) > k * k * var)

open Classical in
noncomputable def isOut (w : ℝ) : Bool := decide (w ≤ 0)

open Classical in
/-- the test in the second and third triangulated loops: mrcal.c:4296-4301, 4370-4374 -/
noncomputable def triExceeds (p : Problem) (k var : ℝ) (i : Nat) : Bool :=
  decide (p.xt i * p.xt i > k * k * var)

/-- body of the last triangulated loop mrcal.c:4360-4390 -/
noncomputable def triMark (p : Problem) (var : ℝ) (a : (Int → Bool) × Int) (pi : (Int × Int) × Nat) :
    (Int → Bool) × Int :=
  if !a.1 pi.1.1 && !a.1 pi.1.2 then
    if triExceeds p k0 var pi.2 then (setFlag (setFlag a.1 pi.1.1) pi.1.2, a.2 + 1) else a
  else a

structure Result where
  obs : Obs
  noutBoard : Int
  noutTri : Int
  found : Bool

/-- `markOutliers` mrcal.c:3978-4402. `var` is 0/0 in the C if there are no inliers at all. It is then not
used: every use is guarded by the observation being an inlier. -/
noncomputable def markOutliers (p : Problem) (o : Obs) : Result :=
  let a := o.weights.zipIdx.foldl (boardVar p.x) ⟨0, 0, 0⟩
  let t := p.pairs.zipIdx.foldl (triVar p) ⟨o.flags, false, 0, 0, a.var⟩
  let var := t.var / ((a.nIn * 2 + t.nIn : Int) : ℝ)
  -- mrcal.c:4253-4281. The loop runs only if !foundNewOutliers
  let found := t.found || o.weights.zipIdx.any (fun wi => !isOut wi.1 && boardExceeds p.x k1 var wi.2)
  -- mrcal.c:4282-4307
  let found := found || p.pairs.zipIdx.any (fun pi =>
    !t.flags pi.1.1 && !t.flags pi.1.2 && triExceeds p k1 var pi.2)
  if !found then ⟨⟨o.weights, t.flags⟩, a.nOut, t.nOut, false⟩
  else
    -- mrcal.c:4314-4356
    let w := o.weights.zipIdx.foldl (fun (b : List ℝ × Int) wi =>
        if isOut wi.1 then (b.1 ++ [wi.1], b.2)
        else if boardExceeds p.x k0 var wi.2 then (b.1 ++ [wi.1 * (-1.0)], b.2 + 1)
        else (b.1 ++ [wi.1], b.2)) ([], a.nOut)
    let m := p.pairs.zipIdx.foldl (triMark p var) (t.flags, t.nOut)
    ⟨⟨w.1, m.1⟩, w.2, m.2, true⟩

open Classical in
/-- the count reported before any rejection mrcal.c:6424-6427 -/
noncomputable def initialCount (o : Obs) : Int :=
  (o.weights.countP (fun w => decide (w < 0)) : Nat)

/-- One iteration of the do/while loop of `mrcal_optimize` mrcal.c:6433-6474 that asks for another one.
`solve` stands for dogleg_optimize2(): whatever it computes, it's only the residuals that matter here, and
it may depend on anything. -/
def GoesAgain (pairs : List (Int × Int)) (o o' : Obs) : Prop :=
  ∃ p : Problem, p.pairs = pairs ∧ (markOutliers p o).found = true ∧ (markOutliers p o).obs = o'

/-! ### mrcal_corresponding_icam_extrinsics -/

/-- (icam.intrinsics, icam.extrinsics) of an observation -/
abbrev CamIdx := Int × Int

/-- the two maps -/
structure Maps where
  toE : Int → Int
  toI : Int → Int

def setI (f : Int → Int) (i v : Int) : Int → Int := fun j => if j = i then v else f j

/-- how the function can go wrong -/
inductive Err
  /-- returned false -/
  | notVanilla
  /-- an array access out of bounds: undefined behaviour in C -/
  | outOfBounds
  deriving DecidableEq, Repr

/-- `_corresponding_icam_extrinsics__check` mrcal.c:3895-3928. The arrays have `Nci` and `Nce+1` elements. -/
def checkCam (Nci Nce : Int) (m : Maps) (c : CamIdx) : Except Err Maps :=
  let ici := c.1
  let ice := if c.2 < 0 then -1 else c.2
  if ice ≥ Nce then .error .outOfBounds
  else
    let m? : Except Err Maps :=
      if m.toI (ice + 1) = -100 then .ok { m with toI := setI m.toI (ice + 1) ici }
      else if m.toI (ice + 1) ≠ ici then .error .notVanilla
      else .ok m
    m?.bind fun m =>
      if ici < 0 ∨ ici ≥ Nci then .error .outOfBounds
      else if m.toE ici = -100 then .ok { m with toE := setI m.toE ici ice }
      else if m.toE ici ≠ ice then .error .notVanilla
      else .ok m

/-- `mrcal_corresponding_icam_extrinsics` mrcal.c:3929-3969. -/
def correspondingIcamExtrinsics (icam Nci Nce : Int) (boards points : List CamIdx) : Except Err Int :=
  if !(decide (Nci = Nce) || decide (Nci = Nce + 1)) then .error .notVanilla
  else do
    let m ← boards.foldlM (checkCam Nci Nce) ⟨fun _ => -100, fun _ => -100⟩
    let m ← points.foldlM (checkCam Nci Nce) m
    if icam < 0 ∨ icam ≥ Nci then .error .outOfBounds
    else pure (m.toE icam)

/-- The python wrapper `callback_corresponding_icam_extrinsics` mrcal-pywrap.c:3249-3326 checks the queried
index. `none` is a python exception. -/
def pyCorrespondingIcamExtrinsics (icam Nci Nce : Int) (boards points : List CamIdx) : Except Err (Option Int) :=
  if icam < 0 ∨ icam ≥ Nci then .ok none
  else match correspondingIcamExtrinsics icam Nci Nce boards points with
    | .ok r => .ok (some r)
    | .error .notVanilla => .ok none
    | .error .outOfBounds => .error .outOfBounds

end Mrcal.Outliers
