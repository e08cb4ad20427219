import Verif.Model.Measurements
/-
mrcal-pywrap.c: conversion of the python index tables to the C observation arrays.
-/
namespace Mrcal

/-- One row of `indices_point_triangulated_camintrinsics_camextrinsics`, and what the conversion needs of the
matching observation: whether its weight is `<= 0` and whether `_mrcal_unproject_internal()` succeeds on it
(an opaque input here). -/
structure TriRow where
  ipoint : Int
  icamI : Int
  icamE : Int
  weightLE0 : Bool
  unprojectOk : Bool
  deriving DecidableEq, Repr

/-- `c_observations_point_triangulated[idx].last_in_set = true` -/
def setLast (acc : List TriObs) (idx : Int) : List TriObs :=
  acc.modify idx.toNat fun o => { o with last := true }

/-- `_finish_triangulated_set` mrcal-pywrap.c:1287-1307. `none` = error. -/
def finishTriangulatedSet (acc : List TriObs) (Npoints_in_this_set idx : Int) : Option (List TriObs) :=
  if idx < 0 then some acc
  else
    let acc := setLast acc idx
    if Npoints_in_this_set < 2 then none else some acc

/-- The loop of `fill_c_observations_point_triangulated` mrcal-pywrap.c:1371-1441. `acc` is the part of the
output array written so far, `i` its length. -/
def fillTriLoop : List TriRow → (i ipointCurrent Nset : Int) → List TriObs → Option (List TriObs)
  | [], i, _, Nset, acc => finishTriangulatedSet acc Nset (i - 1)
  | r :: rs, i, cur, Nset, acc =>
    if !r.unprojectOk then none
    else
      let acc := acc ++ [⟨false, r.weightLE0, r.icamI, r.icamE⟩]
      if r.ipoint < 0 then none
      else if r.ipoint = cur then fillTriLoop rs (i + 1) cur (Nset + 1) acc
      else if r.ipoint = cur + 1 then
        match finishTriangulatedSet acc Nset (i - 1) with
        | none => none
        | some acc => fillTriLoop rs (i + 1) r.ipoint 1 acc
      else none

/-- `fill_c_observations_point_triangulated` mrcal-pywrap.c:1311-1445 (array-layout checks are done by numpy
code that is not modelled). -/
def fillTri (rows : List TriRow) : Option (List TriObs) := fillTriLoop rows 0 (-1) 0 []

/-- A row (iframe or ipoint, icam_intrinsics, icam_extrinsics) of an index table. -/
structure IdxRow where
  i : Int
  icamI : Int
  icamE : Int
  deriving DecidableEq, Repr

/-- Loop over the board rows in `optimize_validate_args` mrcal-pywrap.c:1069-1127 -/
def validateBoardsLoop (Nframes Nci Nce : Int) : List IdxRow → (iframeLast iciLast iceLast : Int) → Bool
  | [], _, _, _ => true
  | r :: rs, fl, il, el =>
    if r.i < 0 ∨ r.i ≥ Nframes then false
    else if r.icamI < 0 ∨ r.icamI ≥ Nci then false
    else if r.icamE < -1 ∨ r.icamE ≥ Nce then false
    else if r.i = fl then
      if r.icamI < il then false
      else if r.icamE < el then false
      else validateBoardsLoop Nframes Nci Nce rs r.i r.icamI r.icamE
    else if r.i < fl then false
    else if r.i - fl ≠ 1 then false
    else validateBoardsLoop Nframes Nci Nce rs r.i r.icamI r.icamE

/-- mrcal-pywrap.c:1063-1138 -/
def validateBoards (Nframes Nci Nce : Int) (rows : List IdxRow) : Bool :=
  validateBoardsLoop Nframes Nci Nce rows (-1) (-1) (-1) &&
    match rows.getLast? with
    | none => true
    | some r => r.i == Nframes - 1

/-- mrcal-pywrap.c:1140-1157 -/
def validateNpointsFixed (Npoints NpointsFixed : Int) : Bool :=
  if Npoints > 0 then
    !(NpointsFixed > Npoints)
  else !(NpointsFixed ≠ 0)

/-- Loop over the point rows mrcal-pywrap.c:1161-1198: returns the biggest i_point, or `none` on error -/
def validatePointsLoop (Npoints Nci Nce : Int) : List IdxRow → (biggest : Int) → Option Int
  | [], b => some b
  | r :: rs, b =>
    if r.i < 0 ∨ r.i ≥ Npoints then none
    else if r.icamI < 0 ∨ r.icamI ≥ Nci then none
    else if r.icamE < -1 ∨ r.icamE ≥ Nce then none
    else if r.i > b then
      if r.i > b + 1 then none
      else validatePointsLoop Npoints Nci Nce rs r.i
    else validatePointsLoop Npoints Nci Nce rs b

/-- mrcal-pywrap.c:1159-1204 -/
def validatePoints (Npoints Nci Nce : Int) (rows : List IdxRow) : Bool :=
  match validatePointsLoop Npoints Nci Nce rows (-1) with
  | none => false
  | some b => b == Npoints - 1

/-- Loop over the triangulated rows mrcal-pywrap.c:1206-1236 -/
def validateTriLoop (Nci Nce : Int) : List TriRow → (biggest : Int) → Bool
  | [], _ => true
  | r :: rs, b =>
    if r.icamI < 0 ∨ r.icamI ≥ Nci then false
    else if r.icamE < -1 ∨ r.icamE ≥ Nce then false
    else if r.ipoint > b then
      if r.ipoint > b + 1 then false
      else validateTriLoop Nci Nce rs r.ipoint
    else validateTriLoop Nci Nce rs b

/-- The shapes of the arrays given to `optimize()`/`optimizer_callback()`, and the index tables. Array
contents other than the indices, and the dtype/contiguity checks (`CHECK_LAYOUT`, which also forces the
trailing dimensions), are not modelled. -/
structure Args where
  NciIntrinsics : Int      -- intrinsics.shape[0]
  NciImagersizes : Int     -- imagersizes.shape[0]
  Nce : Int                -- rt_cam_ref.shape[0]
  Nframes : Int            -- rt_ref_frame.shape[0]
  Npoints : Int            -- points.shape[0]
  NpointsFixed : Int
  NobsBoard : Int          -- observations_board.shape[0]
  NobsPoint : Int          -- observations_point.shape[0]
  NobsTri : Int            -- observations_point_triangulated.shape[0]
  boards : List IdxRow
  points : List IdxRow
  tri : List TriRow
  spacingPositive : Bool   -- calibration_object_spacing > 0
  optimizeWarp : Bool      -- do_optimize_calobject_warp != 0
  warpGiven : Bool         -- calobject_warp not None
  icamIntrinsicsQuery : Int -- icam_intrinsics argument (<0: unused)
  lensmodelOk : Bool       -- lensmodel_one_validate_args()

/-- `optimize_validate_args` mrcal-pywrap.c:976-1244 -/
def optimizeValidateArgs (a : Args) : Bool :=
  if a.NciImagersizes ≠ a.NciIntrinsics then false
  else if (a.boards.length : Int) ≠ a.NobsBoard then false
  else if a.NobsBoard > 0 ∧ a.spacingPositive = false then false
  else if a.NobsBoard > 0 ∧ a.optimizeWarp = true ∧ a.warpGiven = false then false
  else if (a.points.length : Int) ≠ a.NobsPoint then false
  else if (a.tri.length : Int) ≠ a.NobsTri then false
  else if a.icamIntrinsicsQuery ≥ a.NciIntrinsics then false
  else if a.lensmodelOk = false then false
  else if validateBoards a.Nframes a.NciIntrinsics a.Nce a.boards = false then false
  else if validateNpointsFixed a.Npoints a.NpointsFixed = false then false
  else if validatePoints a.Npoints a.NciIntrinsics a.Nce a.points = false then false
  else validateTriLoop a.NciIntrinsics a.Nce a.tri (-1)

end Mrcal
