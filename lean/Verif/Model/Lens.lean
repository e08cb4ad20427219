/-
Lens models, their parameter counts, and the problem-selection bits.
-/
namespace Mrcal

/-- The valid lens models. types.h:33-50 (`MRCAL_LENSMODEL_LIST`) with the configurations of
types.h:68-90. The enum's error values (types.h:100-117) appear only as results of name
parsing, see `Verif/Model/LensName.lean`. The `uint16_t` configuration values are `Nat` here (the
`< 65536` bound is a hypothesis where it matters); the `double` linearity is a rational. -/
inductive Lens
  | pinhole | stereographic | lonlat | latlon
  | opencv4 | opencv5 | opencv8 | opencv12
  | cahvor
  | cahvore (linearity : Rat)
  | splined (order Nx Ny fovXDeg : Nat)
  deriving DecidableEq, Repr

/-- `mrcal_lensmodel_num_params` mrcal.c:303-335. All values of `Lens` are valid models, so the `-1`
default branch has no counterpart. -/
def Lens.numParams : Lens → Int
  | .pinhole => 4 | .stereographic => 4 | .lonlat => 4 | .latlon => 4
  | .opencv4 => 8 | .opencv5 => 9 | .opencv8 => 12 | .opencv12 => 16
  | .cahvor => 9
  | .cahvore _ => 12
  | .splined _ nx ny _ => (nx : Int) * (ny : Int) * 2 + 4

/-- `modelHasCore_fxfycxcy` mrcal.c:290-295, reading `mrcal_lensmodel_metadata` mrcal.c:254-288:
each model reports `has_core = true`. -/
def Lens.hasCore : Lens → Bool
  | _ => true

/-- `can_project_behind_camera` in `mrcal_lensmodel_metadata` mrcal.c:254-288. -/
def Lens.canProjectBehind : Lens → Bool
  | .splined .. | .stereographic | .lonlat | .latlon => true
  | _ => false

/-- `noncentral` in `mrcal_lensmodel_metadata` mrcal.c:254-288. -/
def Lens.noncentral : Lens → Bool
  | .cahvore _ => true
  | _ => false

/-- Is this `MRCAL_LENSMODEL_SPLINED_STEREOGRAPHIC`? (tests such as mrcal.c:769) -/
def Lens.isSplined : Lens → Bool
  | .splined .. => true
  | _ => false

/-- `run_len = order+1` (mrcal.c:771), meaningful for splined models only. -/
def Lens.runLen : Lens → Int
  | .splined order _ _ _ => (order : Int) + 1
  | _ => 0

/-- `mrcal_problem_selections_t` types.h:283-313. -/
structure Sel where
  core : Bool
  distortions : Bool
  extrinsics : Bool
  frames : Bool
  warp : Bool
  regularization : Bool
  outlierRejection : Bool
  unityCam01 : Bool
  deriving DecidableEq, Repr

end Mrcal
