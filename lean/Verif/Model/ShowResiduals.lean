import Verif.Model.ReprojectImage
import Mathlib.Analysis.Real.Sqrt
/-
show_residuals_board_observation(): /repo/mrcal/visualization.py:3349-3483, and the tool mrcal-show-residuals-board-observation: lines 136-180, 223-331, 385-387, after argparse.

What is called is given: optimizer_callback() (its result is `x`), np.argsort(), fnmatch, os.path.exists(). gnuplot isn't modelled: a plot is the data that it gets. Arithmetic is exact. The indices are natural numbers: negative ones, which
python counts from the end, can only be passed to the function, not to the tool. `int()` accepts blanks, '+' and '_' too, and the regular expression a newline at the end: not modelled. The options explore, title, extratitle, cbmax aren't modelled, and neither are the ranges of the axes. The name of the hardcopy isn't empty.
-/
namespace Mrcal.ShowResiduals

open Mrcal
open Mrcal.Reproject (FName)

/-! ### the command line -/

/-- `re.match("^([0-9]+)-([0-9]+)$", s)` mrcal-show-residuals-board-observation:159: the two groups. The first '-' is the separator: the groups have none -/
def splitDash : List Char → Option (List Char × List Char)
  | [] => none
  | c :: l => if c = '-' then some ([], l) else (splitDash l).map fun r => (c :: r.1, r.2)

def number (s : List Char) : Option Nat := if s ≠ [] ∧ s.all Name.isDigit then some (Name.decVal s) else none

/-- `list_ints_from_range_string` mrcal-show-residuals-board-observation:148-171. `none`: the tool exits with an error -/
def obsArg (s : List Char) : Option (List Nat) :=
  match Reproject.pyInt s with
  | some i => if i < 0 then none else some [i.toNat]
  | none => (splitDash s).bind fun p => (number p.1).bind fun i0 => (number p.2).map fun i1 => List.range' i0 (i1 + 1 - i0)

/-- what is called -/
structure Env where
  /-- fnmatch: glob, path -/
  glob : FName → FName → Bool
  argsort : List ℝ → List Nat
  /-- os.path.exists() -/
  pathExists : FName → Bool

structure Args where
  fromWorst : Bool
  fromGlob : Bool
  hardcopy : Bool
  observations : List FName

/-- `matching_path_indices` lines 238-251. A glob that can't be compiled isn't modelled -/
def globIndices (env : Env) (paths : List FName) (g : FName) : Option (List Nat) :=
  let m := (List.range paths.length).filter fun i => env.glob g (paths.getD i [])
  if m = [] then none else some m

/-- the observations: lines 142-180, 230-253. `paths`: from the model. `none`: the tool exits with an error -/
def wanted (env : Env) (a : Args) (paths : Option (List FName)) : Option (List Nat) :=
  if a.fromWorst && a.fromGlob then none
  else if a.fromGlob then
    if a.hardcopy && decide (a.observations.length ≠ 1) then none
    else paths.bind fun paths => (a.observations.mapM (globIndices env paths)).map List.flatten
  else ((a.observations.mapM obsArg).map List.flatten).bind fun l => if a.hardcopy && decide (l.length ≠ 1) then none else some l

/-! ### a plot -/

/-- a corner of a chessboard: observations_board[i,row,col] -/
structure Corner where
  x : ℝ
  y : ℝ
  weight : ℝ

/-- the parts of optimization_inputs that are used, and the measurements. Each observation has H rows of W corners -/
structure Solve where
  H : Nat
  W : Nat
  boards : List (List Corner)
  x : List ℝ
  paths : Option (List FName)
  /-- iframe, icam_intrinsics, icam_extrinsics -/
  indices : List (Nat × Nat × Int)

/-- `x[:np.prod(x_shape)].reshape(*x_shape)` visualization.py:3375: observation i, corner k -/
def resid (S : Solve) (i k : Nat) : ℝ × ℝ := (S.x.getD ((i * (S.H * S.W) + k) * 2) 0, S.x.getD ((i * (S.H * S.W) + k) * 2 + 1) 0)

/-- err_per_observation: visualization.py:3380, mrcal-show-residuals-board-observation:281 -/
noncomputable def err (S : Solve) (i : Nat) : ℝ := ((List.range (S.H * S.W)).map fun k => (resid S i k).1 ^ 2 + (resid S i k).2 ^ 2).sum

/-- i_observations_sorted_from_worst: visualization.py:3381-3382, mrcal-show-residuals-board-observation:282-283 -/
noncomputable def order (env : Env) (S : Solve) : List Nat := (env.argsort ((List.range S.boards.length).map (err S))).reverse

structure Options where
  circlescale : ℝ
  vectorscale : ℝ
  pathPrefix : Option FName
  directory : Option FName

/-- what is plotted -/
structure Plot where
  /-- in the title: i_observation, iframe, icam, path -/
  i : Nat
  iframe : Nat
  icam : Nat
  path : Option FName
  /-- in the title. `none`: NaN -/
  rms : Option ℝ
  image : Option FName
  /-- x, y, size, color -/
  points : List (ℝ × ℝ × ℝ × ℝ)
  /-- x, y, dx, dy -/
  vectors : List (ℝ × ℝ × ℝ × ℝ)

/-- the image: visualization.py:3422-3434 -/
def imagePath (env : Env) (o : Options) (path : FName) : Option FName :=
  let p := match o.pathPrefix with
    | some d => d ++ '/' :: path
    | none => match o.directory with
      | some d => d ++ '/' :: Convert.baseName path
      | none => path
  if env.pathExists p then some p else none

open Classical in
/-- the corners that are plotted: the weight is positive: visualization.py:3387-3398. With the residual -/
noncomputable def inliers (S : Solve) (i : Nat) (b : List Corner) : List (Corner × ℝ × ℝ) := (b.zipIdx.filter fun c => decide (0 < c.1.weight)).map fun c => (c.1, resid S i c.2)

/-- RMS_error in the title: visualization.py:3410 -/
noncomputable def rmsOf (c : List (Corner × ℝ × ℝ)) : Option ℝ := if c.length = 0 then none else some (Real.sqrt ((c.map fun c => c.2.1 ^ 2 + c.2.2 ^ 2).sum / c.length))

/-- visualization.py:3464-3468 -/
noncomputable def point (o : Options) (c : Corner × ℝ × ℝ) : ℝ × ℝ × ℝ × ℝ := (c.1.x, c.1.y, 3 * c.1.weight * o.circlescale, Real.sqrt (c.2.1 ^ 2 + c.2.2 ^ 2))

/-- visualization.py:3472-3477 -/
noncomputable def vector (o : Options) (c : Corner × ℝ × ℝ) : ℝ × ℝ × ℝ × ℝ := (c.1.x, c.1.y, o.vectorscale * c.2.1, o.vectorscale * c.2.2)

/-- show_residuals_board_observation() visualization.py:3349-3483. `none`: an exception -/
noncomputable def plot (env : Env) (S : Solve) (o : Options) (fromWorst : Bool) (i : Nat) : Option Plot :=
  if o.pathPrefix.isSome && o.directory.isSome then none
  else if S.x.length < S.boards.length * (S.H * S.W) * 2 then none
  else (if fromWorst then (order env S)[i]? else some i).bind fun i =>
    (S.boards[i]?).bind fun b =>
    (S.indices[i]?).bind fun ix =>
    (match S.paths with
      | none => some none
      | some p => p[i]?.map some).map fun path =>
    ⟨i, ix.1, ix.2.1, path, rmsOf (inliers S i b), path.bind (imagePath env o), (inliers S i b).map (point o), (inliers S i b).map (vector o)⟩

/-! ### the tool -/

/-- the windows, the hardcopy, the exit status -/
structure Out where
  windows : List Plot
  hardcopy : Option Plot
  ok : Bool

/-- lines 313-317: each plot goes to the same file; an exception is an error: lines 305-308 -/
def hardcopies (f : Nat → Option Plot) (file : Option Plot) : List Nat → Out
  | [] => ⟨[], file, true⟩
  | i :: l =>
    match f i with
    | none => ⟨[], file, false⟩
    | some p => hardcopies f (some p) l

/-- the tool: lines 136-180, 223-331, 385-387. Without a hardcopy each plot is made by its own process; the exit status of that isn't looked at: lines 319-331, 385-387. If there are too few measurements, there's an exception: line 279 -/
noncomputable def tool (env : Env) (a : Args) (S : Solve) (o : Options) : Out :=
  if o.pathPrefix.isSome && o.directory.isSome then ⟨[], none, false⟩
  else match wanted env a S.paths with
  | none => ⟨[], none, false⟩
  | some l =>
    if S.x.length < S.boards.length * (S.H * S.W) * 2 then ⟨[], none, false⟩
    else if a.hardcopy then hardcopies (plot env S o a.fromWorst) none l
    else ⟨l.filterMap (plot env S o a.fromWorst), none, true⟩

end Mrcal.ShowResiduals
