import Verif.Model.Measurements
import Verif.Model.Ingest
import Verif.Model.Kwargs
import Verif.Model.LensName
/-
The python functions state_index_...(), num_states_...(), measurement_index_...(), num_measurements_...(): mrcal-pywrap.c:2200-3247; and the sizes that optimize() and
optimizer_callback() use: mrcal-pywrap.c:1676-1794
-/
namespace Mrcal.IndexApi
open Mrcal Mrcal.Kwargs

/-- an array argument, as parsed with PyArray_Converter_leaveNone (mrcal-pywrap.c:850-862): NULL, None, or an array -/
inductive Arg (α : Type) where
  | null
  | none
  | arr (a : α)

/-- IS_NULL python-wrapping-utilities.h:8 -/
def Arg.get {α : Type} : Arg α → Option α
  | .null => Option.none
  | .none => Option.none
  | .arr a => some a

/-- the shape of observations_board -/
structure Boards where
  N : Nat
  H : Nat
  W : Nat

/-- The arguments, after optimization_inputs_kwargs_delete_unknown() (mrcal-pywrap.c:1491-1555) and PyArg_ParseTupleAndKeywords() (mrcal-pywrap.c:2256-2292). Arrays are their rows; the types and the trailing dimensions were
checked (CHECK_LAYOUT). The explicit sizes (Nframes, ...) are not here: they aren't known keys, so they never get through (`Kwargs.explicit_size_rejected`). The parts that aren't for the layout are as in `Mrcal.Args` -/
structure Inputs (α : Type) where
  intrinsics : Arg (List α)
  lensmodel : Option (List Char)
  imagersizes : Arg (List α)
  extrinsics_rt_fromref : Arg (List α)
  frames_rt_toref : Arg (List α)
  rt_cam_ref : Arg (List α)
  rt_ref_frame : Arg (List α)
  points : Arg (List α)
  observations_board : Arg Boards
  indices_board : Arg (List IdxRow)
  observations_point : Arg (List α)
  indices_point : Arg (List IdxRow)
  observations_tri : Arg (List α)
  indices_tri : Arg (List TriRow)
  Npoints_fixed : Int
  flags : Flags
  spacingPositive : Bool
  optimizeWarp : Bool
  warpGiven : Bool
  icamQuery : Int
  intrinsicsWidth : Int

/-- what python gets -/
inductive Ret where
  | value (n : Int)
  | none
  /-- an exception -/
  | error
  /-- the C code reads an object as if it were something else -/
  | invalidRead
  deriving DecidableEq, Repr

/-- PyArray_DIMS(a)[0], or 0 if IS_NULL: mrcal-pywrap.c:2321-2326 -/
def rows {β : Type} (a : Option (List β)) : Int := match a with
  | some l => l.length
  | none => 0

/-- what the callbacks are given mrcal-pywrap.c:2339-2354 -/
structure Problem where
  d : Dims
  Nop : Int
  W : Int
  H : Int

/-- The sizes, and CONSTRUCT_PROBLEM_SELECTIONS: mrcal-pywrap.c:2293-2337. If the lens model isn't needed it's left uninitialized (all 0); here it's arbitrary: `lens` -/
def problem {α : Type} (a : Inputs α) (lens : Lens) : Option Problem := do
  let rt_cam_ref ← stateIndexEffective a.extrinsics_rt_fromref.get a.rt_cam_ref.get
  let rt_ref_frame ← stateIndexEffective a.frames_rt_toref.get a.rt_ref_frame.get
  let Nci := rows a.intrinsics.get
  let Nce := rows rt_cam_ref
  let Nframes := rows rt_ref_frame
  let Nob : Int := match a.observations_board.get with
    | some b => b.N
    | Option.none => 0
  let wh : Int × Int := match a.observations_board.get with
    | some b => if Nob > 0 then (b.W, b.H) else (-1, -1)
    | Option.none => (-1, -1)
  pure { d := { Nci := Nci, Nce := Nce, Nframes := Nframes, Npoints := rows a.points.get, NpointsFixed := a.Npoints_fixed, Nob := Nob,
                sel := selections a.flags Nci Nce Nframes Nob, lens := lens },
         Nop := rows a.observations_point.get, W := wh.1, H := wh.2 }

/-- state_index_generic() mrcal-pywrap.c:2200-2381, as far as the callback -/
def generic {α : Type} (a : Inputs α) (need_lensmodel : Bool) (unused : Lens) (cb : Problem → Ret) : Ret :=
  let lens : Option Lens := if need_lensmodel then
      match a.lensmodel with
      | Option.none => Option.none
      | some s => match Name.fromName (some s) with
        | .ok m => some m
        | _ => Option.none
    else some unused
  match lens with
  | Option.none => .error
  | some lens => match problem a lens with
    | Option.none => .error
    | some p => cb p

/-- `if(index >= 0) return PyLong_FromLong(index); else None` -/
def ret (index : Int) : Ret := if index ≥ 0 then .value index else .none

/-- fill_c_observations_point_triangulated() without the observations mrcal-pywrap.c:1311-1445: the px is 0 and nothing is an outlier -/
def bare (r : TriRow) : TriRow := { r with weightLE0 := false, unprojectOk := true }

/-- mrcal-pywrap.c:2893-2911, 3090-3107: the triangulated observations. `none`: an exception -/
def triObs {α : Type} (a : Inputs α) : Option (List TriObs) := match a.indices_tri.get with
  | Option.none => some []
  | some l => if l.length ≤ 0 then some [] else fillTri (l.map bare)

/-- what can be asked -/
inductive Query where
  | state_index_intrinsics (i : Int)
  | num_states_intrinsics
  | state_index_extrinsics (i : Int)
  | num_states_extrinsics
  | state_index_frames (i : Int)
  | num_states_frames
  | state_index_points (i : Int)
  | num_states_points
  | state_index_calobject_warp
  | num_states_calobject_warp
  | num_states
  | num_intrinsics_optimization_params
  | measurement_index_boards (i : Int)
  | num_measurements_boards
  | measurement_index_points (i : Int)
  | num_measurements_points
  | measurement_index_points_triangulated (i : Int)
  | num_measurements_points_triangulated
  | measurement_index_regularization
  | num_measurements_regularization
  | num_measurements

/-- a result of a function that walks the triangulated observations: `none` would be a read past their end -/
def retTri (r : Option Int) : Ret := match r with
  | some n => ret n
  | Option.none => .invalidRead

/-- All the functions: mrcal-pywrap.c:2383-3247. num_measurements() (mrcal-pywrap.c:3196) compares indices_point_triangulated_camintrinsics_camextrinsics with NULL only, where the others use IS_NULL -/
def call {α : Type} (a : Inputs α) (unused : Lens) : Query → Ret
  | .state_index_intrinsics i => generic a true unused fun p => ret (stateIndexIntrinsics i p.d)
  | .num_states_intrinsics => generic a true unused fun p => ret (numStatesIntrinsics p.d)
  | .state_index_extrinsics i => generic a true unused fun p => ret (stateIndexExtrinsics i p.d)
  | .num_states_extrinsics => generic a false unused fun p => ret (numStatesExtrinsics p.d)
  | .state_index_frames i => generic a true unused fun p => ret (stateIndexFrames i p.d)
  | .num_states_frames => generic a false unused fun p => ret (numStatesFrames p.d)
  | .state_index_points i => generic a true unused fun p => ret (stateIndexPoints i p.d)
  | .num_states_points => generic a false unused fun p => ret (numStatesPoints p.d)
  | .state_index_calobject_warp => generic a true unused fun p => ret (stateIndexWarp p.d)
  | .num_states_calobject_warp => generic a false unused fun p => ret (numStatesWarp p.d)
  | .num_states => generic a true unused fun p => ret (numStates p.d)
  | .num_intrinsics_optimization_params => generic a true unused fun p => ret (numIntrinsicsOpt p.d.sel p.d.lens)
  | .measurement_index_boards i => generic a false unused fun p => ret (if p.W > 0 ∧ p.H > 0 then measurementIndexBoards i p.d.Nob p.W p.H else -1)
  | .num_measurements_boards => generic a false unused fun p => ret (if p.W > 0 ∧ p.H > 0 then numMeasurementsBoards p.d.Nob p.W p.H else 0)
  | .measurement_index_points i => generic a false unused fun p => ret (measurementIndexPoints i p.d.Nob p.Nop p.W p.H)
  | .num_measurements_points => generic a false unused fun p => ret (numMeasurementsPoints p.Nop)
  | .measurement_index_points_triangulated i => generic a false unused fun p => match triObs a with
    | Option.none => .error
    | some obs => retTri (measurementIndexTri i p.d.Nob p.Nop obs p.W p.H)
  | .num_measurements_points_triangulated => generic a false unused fun _ => match triObs a with
    | Option.none => .error
    | some obs => retTri (numMeasurementsTri obs)
  | .measurement_index_regularization => generic a true unused fun p => match triObs a with
    | Option.none => .error
    | some obs => retTri (measurementIndexRegularization p.d p.Nop obs p.W p.H)
  | .num_measurements_regularization => generic a true unused fun p => ret (numMeasurementsRegularization p.d)
  | .num_measurements => generic a true unused fun p => match a.indices_tri with
    | .none => .invalidRead
    | _ => match triObs a with
      | Option.none => .error
      | some obs => retTri (numMeasurements p.d p.Nop obs p.W p.H)

/-- SET_SIZE0_IF_NONE mrcal-pywrap.c:1666-1689 -/
def size0 {β : Type} (a : Arg (List β)) : List β := a.get.getD []

/-- what optimize() and optimizer_callback() lay out -/
structure Layout where
  p : Problem
  tri : List TriObs

/-- The sizes in _optimize() mrcal-pywrap.c:1676-1794. `none`: an exception. The size of observations_board if there are none is 179,171, but it isn't used -/
def optimizeLayout {α : Type} (a : Inputs α) : Option Layout := do
  let intrinsics ← a.intrinsics.get
  let name ← a.lensmodel
  let lens ← match Name.fromName (some name) with
    | .ok m => some m
    | _ => Option.none
  let rt_cam_ref ← optimizeEffective a.extrinsics_rt_fromref.get a.rt_cam_ref.get
  let rt_ref_frame ← optimizeEffective a.frames_rt_toref.get a.rt_ref_frame.get
  let boards := a.observations_board.get.getD ⟨0, 179, 171⟩
  let Nci : Int := intrinsics.length
  let Nce := rows rt_cam_ref
  let Nframes := rows rt_ref_frame
  let Npoints : Int := (size0 a.points).length
  let Nop : Int := (size0 a.observations_point).length
  if optimizeValidateArgs { NciIntrinsics := Nci, NciImagersizes := (size0 a.imagersizes).length, Nce := Nce, Nframes := Nframes, Npoints := Npoints, NpointsFixed := a.Npoints_fixed,
                            NobsBoard := boards.N, NobsPoint := Nop, NobsTri := (size0 a.observations_tri).length, boards := size0 a.indices_board, points := size0 a.indices_point,
                            tri := size0 a.indices_tri, spacingPositive := a.spacingPositive, optimizeWarp := a.optimizeWarp, warpGiven := a.warpGiven, icamIntrinsicsQuery := a.icamQuery,
                            lensmodelOk := decide (lens.numParams = a.intrinsicsWidth) } = true then
    let obs ← fillTri (size0 a.indices_tri)
    pure { p := { d := { Nci := Nci, Nce := Nce, Nframes := Nframes, Npoints := Npoints, NpointsFixed := a.Npoints_fixed, Nob := boards.N, sel := selections a.flags Nci Nce Nframes boards.N, lens := lens },
                  Nop := Nop, W := if (boards.N : Int) > 0 then boards.W else -1, H := if (boards.N : Int) > 0 then boards.H else -1 },
           tri := obs }
  else Option.none

end Mrcal.IndexApi
