import Verif.Model.StateLayout
/-
Keyword-argument preprocessing of the python wrapper: mrcal-pywrap.c:844-937, 1447-1555, 1666-1694,
2200-2326, 4579-4621.
-/
namespace Mrcal.Kwargs

/-- A python object, as far as the wrapper looks at it. `array rows` is a numpy array whose trailing
dimensions are those the wrapper demands (`CHECK_LAYOUT`), so that its `PyArray_SIZE` is 0 iff there are no
rows; wrongly-shaped arrays (rejected later) are not modelled. `other b` is any other object with
truth value `b` (`PyObject_IsTrue`; an exception in there counts as true in the code). -/
inductive PyVal (α : Type)
  | none
  | int (i : Int)
  | array (rows : List α)
  | other (truthy : Bool)

/-- An array argument after parsing: `none` models both `NULL` (absent) and `Py_None`; the code
tests both with `IS_NULL` (python-wrapping-utilities.h / mrcal-pywrap.c:855-878). -/
abbrev ArrArg (α : Type) := Option (List α)

/-- `_handle_renamed` mrcal-pywrap.c:1464-1484. Result: (old, new) after the call; `none` = error. -/
def handleRenamed {α} (old new : ArrArg α) : Option (ArrArg α × ArrArg α) :=
  let nonempty (x : ArrArg α) : Bool := match x with | none => false | some l => l.length != 0
  if nonempty new && nonempty old then none
  else match new with
    | none => some (none, old)
    | some _ => some (old, new)

/-- `SET_SIZE0_IF_NONE` mrcal-pywrap.c:1666-1675 -/
def setSize0IfNone {α} : ArrArg α → ArrArg α
  | none => some []
  | some l => some l

/-- What `_optimize` (optimize() and optimizer_callback()) uses for an argument with a legacy alias:
mrcal-pywrap.c:1677-1694, in that order. -/
def optimizeEffective {α} (old new : ArrArg α) : Option (ArrArg α) :=
  (handleRenamed old (setSize0IfNone new)).map (·.2)

/-- What the state-index functions and pack/unpack_state use: mrcal-pywrap.c:2294-2297, 3497-3500 -/
def stateIndexEffective {α} (old new : ArrArg α) : Option (ArrArg α) :=
  (handleRenamed old new).map (·.2)

/-- "a non-null value" mrcal-pywrap.c:1535-1536 -/
def PyVal.nonNull {α} : PyVal α → Bool
  | .none => false
  | .int i => i != 0
  | .array rows => rows.length != 0
  | .other b => b

/-- `optimization_inputs_kwargs_delete_unknown` mrcal-pywrap.c:1491-1555: loop over the dictionary.
`none` = error. The accumulator is `kwargs_new`; out-of-memory errors are not modelled. -/
def deleteUnknown {κ α} (known : κ → Bool) (acc : List (κ × PyVal α)) :
    List (κ × PyVal α) → Option (List (κ × PyVal α))
  | [] => some acc
  | (k, v) :: rest =>
    if known k then deleteUnknown known (acc ++ [(k, v)]) rest
    else if v.nonNull then none
    else deleteUnknown known acc rest

/-- The names in `_optimization_inputs_known_keys`: mrcal-pywrap.c:4579-4621, expanding
mrcal-pywrap.c:890-937. -/
def knownKeys : List String :=
  ["intrinsics", "lensmodel", "imagersizes",
   "extrinsics_rt_fromref", "frames_rt_toref", "rt_cam_ref", "rt_ref_frame", "points",
   "observations_board", "indices_frame_camintrinsics_camextrinsics",
   "observations_point", "indices_point_camintrinsics_camextrinsics",
   "observations_point_triangulated", "indices_point_triangulated_camintrinsics_camextrinsics",
   "observed_pixel_uncertainty", "calobject_warp", "Npoints_fixed",
   "do_optimize_intrinsics_core", "do_optimize_intrinsics_distortions", "do_optimize_extrinsics",
   "do_optimize_frames", "do_optimize_calobject_warp", "calibration_object_spacing", "verbose",
   "do_apply_regularization", "do_apply_regularization_unity_cam01",
   "do_apply_outlier_rejection", "imagepaths",
   "no_jacobian", "no_factorization", "icam_intrinsics"]

def lookup {α} (kw : List (String × PyVal α)) (name : String) : PyVal α :=
  match kw.find? (fun p => p.1 == name) with
  | some p => p.2
  | none => .none

/-- Parsing an array argument ("O&" with PyArray_Converter_leaveNone, mrcal-pywrap.c:850-878). Objects
that aren't arrays are a conversion error here (numpy would convert some of them). -/
def parseArr {α} (kw : List (String × PyVal α)) (name : String) : Option (ArrArg α) :=
  match lookup kw name with
  | .none => some none
  | .array rows => some (some rows)
  | _ => none

/-- Parsing an int argument ("i"); absent = -1 (mrcal-pywrap.c:2220-2225). An explicit `None` is a
python TypeError. -/
def parseInt {α} (kw : List (String × PyVal α)) (name : String) : Option Int :=
  match kw.find? (fun p => p.1 == name) with
  | none => some (-1)
  | some (_, .int i) => some i
  | some _ => none

/-- `if(N<0) N = IS_NULL(arr) ? 0 : PyArray_DIMS(arr)[0]` mrcal-pywrap.c:2321-2326 -/
def sizeFrom {α} (explicit : Int) (arr : ArrArg α) : Int :=
  if explicit < 0 then match arr with | none => 0 | some rows => rows.length else explicit

/-- The number of frames as the state-index functions determine it: mrcal-pywrap.c:2200-2326
restricted to what affects `Nframes`. `none` = error. The other sizes are handled by the same code with
other names (`Ncameras_extrinsics`: `extrinsics_rt_fromref`, `rt_cam_ref`). -/
def sizeArg {α} (sizeName oldName newName : String) (kwargs : List (String × PyVal α)) : Option Int := do
  let kw ← deleteUnknown (fun k => knownKeys.contains k) [] kwargs
  let explicit ← parseInt kw sizeName
  let old ← parseArr kw oldName
  let new ← parseArr kw newName
  let arr ← stateIndexEffective old new
  pure (sizeFrom explicit arr)

/-- A `do_...` flag as parsed ("p": 0 or 1; the initial value if absent), mrcal-pywrap.c:916-926 -/
def parseFlag (dflt : Int) : Option Bool → Int
  | none => dflt
  | some b => if b then 1 else 0

/-- `CONSTRUCT_PROBLEM_SELECTIONS` mrcal-pywrap.c:1448-1457. The bit-fields of the struct receive 0/1. -/
def constructProblemSelections (core dist extr frames warp reg unity outlier : Int)
    (Nci Nce Nframes Nob : Int) : Sel :=
  let b (i : Int) : Bool := i != 0
  let dflt (flag : Int) (n : Int) : Int := if flag ≥ 0 then flag else (if n > 0 then 1 else 0)
  { core := b (dflt core Nci)
    distortions := b (dflt dist Nci)
    extrinsics := b (dflt extr Nce)
    frames := b (dflt frames Nframes)
    warp := b (dflt warp Nob)
    regularization := b reg
    unityCam01 := b unity
    outlierRejection := b outlier }

/-- The user's flags: absent or given. -/
structure Flags where
  core : Option Bool
  distortions : Option Bool
  extrinsics : Option Bool
  frames : Option Bool
  warp : Option Bool
  regularization : Option Bool
  unityCam01 : Option Bool
  outlierRejection : Option Bool

/-- Flags → selections, with the initial values of mrcal-pywrap.c:916-926. -/
def selections (f : Flags) (Nci Nce Nframes Nob : Int) : Sel :=
  constructProblemSelections (parseFlag (-1) f.core) (parseFlag (-1) f.distortions)
    (parseFlag (-1) f.extrinsics) (parseFlag (-1) f.frames) (parseFlag (-1) f.warp)
    (parseFlag 1 f.regularization) (parseFlag 0 f.unityCam01) (parseFlag 1 f.outlierRejection)
    Nci Nce Nframes Nob

end Mrcal.Kwargs
