import Verif.Model.Lens
/-
State-vector layout: mrcal.c:337-379 and mrcal.c:3737-3880.
All the C `int` arguments are `Int` (no overflow).
-/
namespace Mrcal

/-- The arguments common to all the `mrcal_state_index_...` / `mrcal_num_states...` functions. -/
structure Dims where
  /-- Ncameras_intrinsics -/
  Nci : Int
  /-- Ncameras_extrinsics -/
  Nce : Int
  Nframes : Int
  Npoints : Int
  NpointsFixed : Int
  /-- Nobservations_board -/
  Nob : Int
  sel : Sel
  lens : Lens

/-- `get_num_distortions_optimization_params` mrcal.c:337-348 -/
def numDistortionsOpt (sel : Sel) (lens : Lens) : Int :=
  if !sel.distortions then 0
  else
    let N := lens.numParams
    if lens.hasCore then N - 4 else N

/-- `mrcal_num_intrinsics_optimization_params` mrcal.c:350-359 -/
def numIntrinsicsOpt (sel : Sel) (lens : Lens) : Int :=
  let N := numDistortionsOpt sel lens
  if sel.core && lens.hasCore then N + 4 else N

/-- `has_calobject_warp` mrcal.c:737-741 -/
def hasCalobjectWarp (sel : Sel) (Nob : Int) : Bool := sel.warp && decide (Nob > 0)

/-- `mrcal_num_states_intrinsics` mrcal.c:3754-3761 -/
def numStatesIntrinsics (d : Dims) : Int := d.Nci * numIntrinsicsOpt d.sel d.lens

/-- `mrcal_num_states_extrinsics` mrcal.c:3784-3788 -/
def numStatesExtrinsics (d : Dims) : Int := if d.sel.extrinsics then 6 * d.Nce else 0

/-- `mrcal_num_states_frames` mrcal.c:3813-3817 -/
def numStatesFrames (d : Dims) : Int := if d.sel.frames then 6 * d.Nframes else 0

/-- `mrcal_num_states_points` mrcal.c:3846-3851 -/
def numStatesPoints (d : Dims) : Int :=
  let Nvar := d.Npoints - d.NpointsFixed
  if d.sel.frames then Nvar * 3 else 0

/-- `mrcal_num_states_calobject_warp` mrcal.c:3874-3880 (`MRCAL_NSTATE_CALOBJECT_WARP` = 2) -/
def numStatesWarp (d : Dims) : Int := if hasCalobjectWarp d.sel d.Nob then 2 else 0

/-- `mrcal_num_states` mrcal.c:361-379 -/
def numStates (d : Dims) : Int :=
  numStatesIntrinsics d + numStatesExtrinsics d + numStatesFrames d + numStatesPoints d +
    numStatesWarp d

/-- `mrcal_state_index_intrinsics` mrcal.c:3737-3752 -/
def stateIndexIntrinsics (icam : Int) (d : Dims) : Int :=
  if d.Nci ≤ 0 then -1
  else
    let N := numIntrinsicsOpt d.sel d.lens
    if N ≤ 0 then -1
    else if !(decide (0 ≤ icam) && decide (icam < d.Nci)) then -1
    else icam * N

/-- `mrcal_state_index_extrinsics` mrcal.c:3763-3782 -/
def stateIndexExtrinsics (icam : Int) (d : Dims) : Int :=
  if d.Nce ≤ 0 then -1
  else if !d.sel.extrinsics then -1
  else if !(decide (0 ≤ icam) && decide (icam < d.Nce)) then -1
  else numStatesIntrinsics d + icam * 6

/-- `mrcal_state_index_frames` mrcal.c:3790-3811 -/
def stateIndexFrames (iframe : Int) (d : Dims) : Int :=
  if d.Nframes ≤ 0 then -1
  else if !d.sel.frames then -1
  else if !(decide (0 ≤ iframe) && decide (iframe < d.Nframes)) then -1
  else numStatesIntrinsics d + numStatesExtrinsics d + iframe * 6

/-- `mrcal_state_index_points` mrcal.c:3819-3844 -/
def stateIndexPoints (ipoint : Int) (d : Dims) : Int :=
  let Nvar := d.Npoints - d.NpointsFixed
  if Nvar ≤ 0 then -1
  else if !d.sel.frames then -1
  else if !(decide (0 ≤ ipoint) && decide (ipoint < Nvar)) then -1
  else numStatesIntrinsics d + numStatesExtrinsics d + numStatesFrames d + ipoint * 3

/-- `mrcal_state_index_calobject_warp` mrcal.c:3853-3872 -/
def stateIndexWarp (d : Dims) : Int :=
  if !hasCalobjectWarp d.sel d.Nob then -1
  else numStatesIntrinsics d + numStatesExtrinsics d + numStatesFrames d + numStatesPoints d

end Mrcal
