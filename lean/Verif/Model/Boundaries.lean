import Verif.Model.IndexApi
/-
The 'set' plot options that show the blocks of the state and measurement vectors: utils.py:1004-1102
-/
namespace Mrcal.Boundaries
open Mrcal Mrcal.IndexApi

/-- the two directives of one block: an arrow and a label at x = pos -/
structure Mark where
  pos : Int
  what : String
deriving DecidableEq, Repr

/-- `_plot_options_state_meas_boundary` utils.py:1004-1013. The name is that of the function without its prefix. The outer `none`: an exception -/
def boundary (what : String) (i0 : Ret) : Option (List Mark) :=
  match i0 with
  | .value n => some [⟨n, what⟩]
  | .none => some []
  | .error => Option.none
  | .invalidRead => Option.none

/-- concatenates the lists: utils.py:1052-1057, 1097-1100 -/
def concat (l : List (Option (List Mark))) : Option (List Mark) := (l.mapM id).map List.flatten

/-- `plotoptions_state_boundaries` utils.py:1052-1057 -/
def stateMarks {α : Type} (a : Inputs α) (u : Lens) : Option (List Mark) :=
  concat [boundary "intrinsics" (call a u (.state_index_intrinsics 0)), boundary "extrinsics" (call a u (.state_index_extrinsics 0)), boundary "frames" (call a u (.state_index_frames 0)),
    boundary "points" (call a u (.state_index_points 0)), boundary "calobject_warp" (call a u .state_index_calobject_warp)]

/-- `plotoptions_measurement_boundaries` utils.py:1097-1100 -/
def measurementMarks {α : Type} (a : Inputs α) (u : Lens) : Option (List Mark) :=
  concat [boundary "boards" (call a u (.measurement_index_boards 0)), boundary "points" (call a u (.measurement_index_points 0)), boundary "regularization" (call a u .measurement_index_regularization)]

end Mrcal.Boundaries
