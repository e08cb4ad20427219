import Verif.Model.CalibrateCameras
import Verif.Model.ModelPy
import Verif.Model.ModelDiff
import Verif.Model.Rodrigues
/-
The tool mrcal-convert-lensmodel: /repo/mrcal-convert-lensmodel:276-911, from the parsed options and the model that was read to the models that are written. What it calls is given: mrcal.optimize(), mrcal.unproject(),
mrcal.align_procrustes_points_Rt01(), mrcal.ref_calibration_object(), the random numbers, os.path.exists().

Not modelled: the parsing of the command line; what's printed; the plot, except for which model it shows; the note. Numbers are real. The point observations of the optimization inputs are only the indices of their cameras:
the tool doesn't look at anything else there. Arrays are values: mrcal.optimize() modifies the arrays it's given, and nobody else has them (optimization_inputs_before is a deep copy: line 504).
-/
namespace Mrcal.Convert

open Mrcal Mrcal.Pose
open Mrcal.Calibrate (Corner opencvN)

/-- an observation of the board: a row of indices_frame_camintrinsics_camextrinsics, of observations_board and of imagepaths -/
structure Board where
  iframe : Int
  icamI : Int
  icamE : Int
  corners : List Corner
  image : Nat

/-- optimization_inputs -/
structure Inputs where
  lens : Lens
  intr : List (List ℝ)
  sizes : List (Int × Int)
  rt_cam_ref : List RtV
  rt_ref_frame : List RtV
  boards : List Board
  /-- the indices of the cameras that observe points -/
  points : List (Int × Int)
  warp : Option (ℝ × ℝ)
  sel : Sel

/-- the model that was read -/
structure CamIn where
  lensName : List Char
  lens : Lens
  intr : List ℝ
  size : Int × Int
  rt_cam_ref : RtV
  /-- optimization_inputs() and icam_intrinsics() -/
  inputs : Option (Inputs × Int)

/-- a model to be written -/
structure CamOut where
  lensName : List Char
  intr : List ℝ
  size : Int × Int
  rt_cam_ref : RtV
  inputs : Option (Inputs × Int)

structure Args where
  sampled : Bool
  gridn : Nat × Nat
  /-- `some none`: that isn't a list of numbers -/
  distance : Option (Option (List ℝ))
  intrinsicsOnly : Bool
  whr : Option P2
  radius : Option ℝ
  monocular : Bool
  all : Bool
  force : Bool
  outdir : Option (List Char)
  numTrials : Nat
  target : List Char
  model : List Char

/-- the optimization problem of a sampled fit: lines 733-767. Each sample is a pixel with weight 1, and a fixed point; `ext`: rt_cam_ref of the one camera, or it sits at the reference, and is fixed -/
structure Fit where
  lens : Lens
  intr : List ℝ
  ext : Option RtV
  samples : List (P2 × P3)
  size : Int × Int
  core : Bool

/-- the functions that are called. `none`: an exception -/
structure Env where
  /-- mrcal.optimize(): the inputs afterwards -/
  optimize : Inputs → Option Inputs
  /-- mrcal.optimize() for the sampled fit: the problem afterwards, and rms_reproj_error__pixels; `none`: it's NaN -/
  fit : Fit → Option (Fit × Option ℝ)
  /-- mrcal.unproject(..., normalize = True). `none`: NaN -/
  unproject : Lens → List ℝ → P2 → Option P3
  /-- mrcal.ref_calibration_object() with the deflection; the corners are in the same order as in an observation -/
  object : Option (ℝ × ℝ) → List P3
  align : List P3 → List P3 → Rt
  /-- np.random.random(): the camera or the trial, the index -/
  random : Nat → Nat → ℝ
  randomExt : Nat → RtV
  pathExists : List Char → Bool

/-- numpy indexing: negative indices count from the end; others raise IndexError -/
def pyGet {α : Type} (l : List α) (i : Int) : Option α :=
  if 0 ≤ i then l[i.toNat]? else if -(l.length : Int) ≤ i then l[(l.length + i).toNat]? else none

/-! ### the names of the files -/

/-- the part after the last '/' -/
def baseName (p : List Char) : List Char := (p.reverse.takeWhile fun c => decide (c ≠ '/')).reverse
/-- the rest -/
def dirName (p : List Char) : List Char := (p.reverse.dropWhile fun c => decide (c ≠ '/')).reverse

/-- os.path.splitext() of a name without '/': the last dot, unless there are only dots before it -/
def splitExtBase (b : List Char) : List Char × List Char :=
  if '.' ∈ b then
    let ext := (b.reverse.takeWhile fun c => decide (c ≠ '.')).reverse
    let stem := (b.reverse.drop (ext.length + 1)).reverse
    if stem.all fun c => decide (c = '.') then (b, []) else (stem, '.' :: ext)
  else (b, [])

/-- os.path.splitext() -/
def splitExt (p : List Char) : List Char × List Char :=
  (dirName p ++ (splitExtBase (baseName p)).1, (splitExtBase (baseName p)).2)

def camid : List Char := "{CAMID}".toList

/-- `file_output` lines 355-362 -/
def template (a : Args) : List Char :=
  match a.outdir with
  | none => (splitExt a.model).1 ++ '-' :: (a.target ++ camid ++ (splitExt a.model).2)
  | some d => d ++ '/' :: (baseName (splitExt a.model).1 ++ '-' :: (a.target ++ camid ++ (splitExt a.model).2))

/-- `str.replace('{CAMID}', sub)` lines 845, 861: every occurrence -/
def replaceCamid (sub : List Char) : List Char → List Char
  | [] => []
  | c :: cs => if camid.isPrefixOf (c :: cs) then sub ++ replaceCamid sub (cs.drop 6) else c :: replaceCamid sub cs
termination_by l => l.length
decreasing_by all_goals (simp only [List.length_drop, List.length_cons]; omega)

/-- `'-{:02d}'.format(icam)` line 861 -/
def camSuffix (icam : Nat) : List Char := '-' :: ModelPy.pad2 (Name.printNat icam)

/-! ### the optimization inputs -/

/-- lines 422-501: the problem that only has the observations of this camera. `none`: an error -/
noncomputable def monocular (icam : Int) (I : Inputs) : Option Inputs := do
  if I.points ≠ [] then none
  else
    let B := I.boards.filter fun (b : Board) => decide (b.icamI = icam)
    let intr ← pyGet I.intr icam
    let size ← pyGet I.sizes icam
    let b0 ← B.head?
    if B.any fun (b : Board) => decide (b.icamE ≠ b0.icamE) then none
    else
      let moved ←
        (if b0.icamE ≥ 0 then (pyGet I.rt_cam_ref b0.icamE).map fun c => (I.rt_ref_frame.map fun f => (composert c f false false).rt, ([] : List RtV))
         else some (I.rt_ref_frame, I.rt_cam_ref))
      let frames ← B.mapM fun (b : Board) => pyGet moved.1 b.iframe
      some { I with
        intr := [intr]
        sizes := [size]
        rt_cam_ref := moved.2
        rt_ref_frame := frames
        boards := B.mapIdx fun i b => { b with iframe := (i : Int), icamI := 0, icamE := -1 } }

/-- (dims - 1)/2 -/
noncomputable def centre (size : Int × Int) : P2 := ⟨((size.1 : ℝ) - 1) / 2, ((size.2 : ℝ) - 1) / 2⟩

def dist2 (a b : P2) : ℝ := (a.x - b.x) * (a.x - b.x) + (a.y - b.y) * (a.y - b.y)

/-- `r` lines 523-529, 670-677. `none`: an error -/
noncomputable def regionRadius (radius : ℝ) (focus : P2) (size : Int × Int) : Option ℝ :=
  if radius > 0 then some radius
  else if dist2 focus (centre size) > 1e-3 then none
  else some (Real.sqrt ((size.1 : ℝ) * size.1 + (size.2 : ℝ) * size.2) / 2 + radius)

/-- `observations[mask,2] = -1` lines 535-538, for one corner -/
noncomputable def cullCorner (focus : P2) (r : ℝ) (c : Corner) : Corner :=
  if dist2 ⟨c.1, c.2.1⟩ focus > r * r then (c.1, c.2.1, -1) else c

/-- lines 514-538, for one camera -/
noncomputable def cullCamera (whr : Option P2) (radius : ℝ) (icam : Nat) (size : Int × Int) (B : List Board) : Option (List Board) :=
  let focus := whr.getD (centre size)
  (regionRadius radius focus size).map fun r => B.map fun b => if b.icamI = (icam : Int) then { b with corners := b.corners.map (cullCorner focus r) } else b

/-- lines 513-538. `none`: an error -/
noncomputable def cull (a : Args) (I : Inputs) : Option Inputs :=
  match a.radius with
  | none => some I
  | some radius =>
    if radius = 0 then some I
    else ((List.range I.intr.length).foldlM (fun (B : List Board) icam => (I.sizes[icam]?).bind fun size => cullCamera a.whr radius icam size B) I.boards).map fun B => { I with boards := B }

/-- lines 549-553, 557, 561-568, 576: the stages -/
def stage1 (s : Sel) : Sel := { s with core := false, distortions := false, warp := false, outlierRejection := false, regularization := false }
def stage2 (s : Sel) : Sel := { s with core := true }
def stage3 (lens : Lens) (s : Sel) : Sel := { s with core := s.core && !lens.isSplined, distortions := true, outlierRejection := true, regularization := true }
def stage4 (s : Sel) : Sel := { s with warp := true }

/-- `scale_down_rational_intrinsics` lines 379-398, for distortion j -/
noncomputable def rationalScale (lens : Lens) (j : Nat) : ℝ := if opencvN lens ≥ 8 ∧ 5 ≤ j ∧ j < 8 then 1e-3 else 1

/-- `Ndistortions` line 338 -/
def numDistortions (lens : Lens) : Nat := (lens.numParams - 4).toNat

/-- lines 541-545: the core only -/
noncomputable def startIntr (lens : Lens) (k : List ℝ) : List ℝ := k.take 4 ++ List.replicate (numDistortions lens) 0

/-- lines 570-572 -/
noncomputable def seedIntr (random : Nat → Nat → ℝ) (lens : Lens) (icam : Nat) (k : List ℝ) : List ℝ :=
  k.take 4 ++ (List.range (numDistortions lens)).map fun j => (random icam j - 0.5) * 2 * 1e-6 * rationalScale lens j

/-- lines 541-577 -/
noncomputable def solve (env : Env) (L : Lens) (I : Inputs) : Option Inputs := do
  let I1 ← env.optimize { I with lens := L, intr := I.intr.map (startIntr L), sel := stage1 I.sel }
  let I2 ← env.optimize { I1 with sel := stage2 I1.sel }
  let I3 ← env.optimize { I2 with sel := stage3 L I2.sel, intr := I2.intr.mapIdx (seedIntr env.random L) }
  env.optimize { I3 with sel := stage4 I3.sel }

/-- the corners of a board in the coordinates of the camera: `p_cam_calobjects` in `hypothesis_board_corner_positions()` utils.py:544-557 -/
noncomputable def boardPoints (env : Env) (I : Inputs) (b : Board) : Option (List P3) := do
  let f ← pyGet I.rt_ref_frame b.iframe
  let c ← pyGet (identityRt :: I.rt_cam_ref.map Rt_from_rt) (b.icamE + 1)
  some ((env.object I.warp).map fun p => transformPointRt (composeRt c (Rt_from_rt f) false false) p false)

/-- `hypothesis_board_corner_positions(icam, idx_inliers = ...)[-2]` utils.py:440-584: the selected corners of this camera. The mask has the shape of the observations: that's where it comes from. It is modified (line 577), but
the second call has the same icam_intrinsics, and then it makes no difference -/
noncomputable def hypothesis (env : Env) (I : Inputs) (icam : Int) (mask : List (List Bool)) : Option (List P3) := do
  let p ← I.boards.mapM (boardPoints env I)
  some ((I.boards.zip (p.zip mask)).flatMap fun x => if x.1.icamI = icam then (x.2.1.zip x.2.2).filterMap fun y => if y.2 then some y.1 else none else [])

open Classical in
/-- `idx_inliers_after` line 583 -/
noncomputable def inliers (I : Inputs) : List (List Bool) := I.boards.map fun b => b.corners.map fun c => decide (c.2.2 > 0)

/-- `mrcal.cameramodel(optimization_inputs = ..., icam_intrinsics = ...)` lines 611, 858; cameramodel.py:1592-1606. `none`: an exception -/
noncomputable def modelOf (name : List Char) (I : Inputs) (icam : Int) : Option CamOut := do
  let intr ← pyGet I.intr icam
  let size ← pyGet I.sizes icam
  match Outliers.pyCorrespondingIcamExtrinsics icam I.intr.length I.rt_cam_ref.length (I.boards.map fun b => (b.icamI, b.icamE)) I.points with
  | .ok (some e) =>
    let rt ← (if e < 0 then some identityrt else pyGet I.rt_cam_ref e)
    some ⟨name, intr, size, rt, some (I, icam)⟩
  | _ => none

/-- what comes out of either of the two methods: the new model of the camera, and `implied_Rt10` -/
structure Solved where
  m_to : CamOut
  implied : Rt
  /-- the optimization inputs at the end, if any: for --all -/
  inputs : Option Inputs

/-- the problem to be solved, and the index of the camera: lines 414-504 -/
noncomputable def problem (a : Args) (M : CamIn) : Option (Inputs × Int) :=
  match M.inputs with
  | none => none
  | some (I, icam) => if a.monocular then (monocular icam I).map fun J => (J, 0) else some (I, icam)

/-- lines 402-612. `none`: an error -/
noncomputable def resolve (env : Env) (a : Args) (L : Lens) (M : CamIn) : Option Solved :=
  if a.intrinsicsOnly then none
  else if ¬ (M.lens.hasCore && L.hasCore) then none
  else do
    let (I, icam) ← problem a M
    let C ← cull a I
    let J ← solve env L C
    let before ← hypothesis env I icam (inliers J)
    let after ← hypothesis env J icam (inliers J)
    let m_to ← modelOf a.target J icam
    some ⟨m_to, env.align after before, some J⟩

/-! ### sampling -/

/-- lines 296-297, 620-629: the distances. `none`: an error -/
noncomputable def distances (a : Args) : Option (List ℝ) :=
  match a.distance with
  | some none => none
  | some (some d) => some d
  | none => if a.intrinsicsOnly then some [10] else none

/-- `args.radius` lines 636-645. `none`: an error -/
noncomputable def radiusOf (a : Args) (size : Int × Int) : Option ℝ :=
  match a.radius with
  | some r => some r
  | none =>
    match a.whr with
    | some w => if dist2 w (centre size) > 1e-3 then none else some (((-(min size.1 size.2)) / 4 : Int) : ℝ)
    | none => some (((-(min size.1 size.2)) / 4 : Int) : ℝ)

/-- lines 656-662: x changes fastest -/
noncomputable def grid (gridn : Nat × Nat) (size : Int × Int) : List P2 :=
  (ModelDiff.linspace ((size.2 : ℝ) - 1) gridn.2).flatMap fun y => (ModelDiff.linspace ((size.1 : ℝ) - 1) gridn.1).map fun x => ⟨x, y⟩

/-- lines 656-681. `none`: an error -/
noncomputable def pixels (a : Args) (size : Int × Int) : Option (List P2) := do
  let radius ← radiusOf a size
  if radius = 0 then some (grid a.gridn size)
  else
    let focus := a.whr.getD (centre size)
    let r ← regionRadius radius focus size
    some ((grid a.gridn size).filter fun q => decide (dist2 q focus < r * r))

def scale (s : ℝ) (v : P3) : P3 := ⟨v.x * s, v.y * s, v.z * s⟩

/-- lines 691-712: a sample for each distance and each pixel -/
noncomputable def samples (env : Env) (M : CamIn) (q : List P2) (d : List ℝ) : List (P2 × P3) :=
  d.flatMap fun s => q.filterMap fun x => (env.unproject M.lens M.intr x).map fun v => (x, scale s v)

/-- `intrinsics_to_values` lines 727-731 -/
noncomputable def trialSeed (env : Env) (L : Lens) (M : CamIn) (i : Nat) : List ℝ :=
  M.intr.take 4 ++ (List.range (numDistortions L)).map fun j => (env.random i j - 0.5) * 1e-3 * rationalScale L j

/-- a trial: lines 726-794 -/
noncomputable def trial (env : Env) (a : Args) (L : Lens) (M : CamIn) (S : List (P2 × P3)) (i : Nat) : Option (Fit × Option ℝ) := do
  let F ← env.fit ⟨L, trialSeed env L M i, none, S, M.size, !L.isSplined⟩
  if a.intrinsicsOnly then some F
  else env.fit { F.1 with ext := some (env.randomExt i) }

/-- lines 797-801: the error and the solution that are the best so far -/
noncomputable def pickBest : ℝ → Option Fit → List (Fit × Option ℝ) → Option Fit
  | _, best, [] => best
  | e, best, (_, none) :: l => pickBest e best l
  | e, best, (F, some x) :: l => if x < e then pickBest x (some F) l else pickBest e best l

/-- lines 614-817. `none`: an error -/
noncomputable def sample (env : Env) (a : Args) (L : Lens) (M : CamIn) : Option Solved := do
  let d ← distances a
  let q ← pixels a M.size
  let trials ← (List.range a.numTrials).mapM (trial env a L M (samples env M q d))
  let best ← pickBest 1e10 none trials
  let implied ← (if a.intrinsicsOnly then some identityRt else best.ext.map Rt_from_rt)
  some ⟨⟨a.target, best.intr, M.size, identityrt, none⟩, implied, none⟩

/-! ### the tool -/

inductive Dest
  | stdout
  | file (path : List Char)

/-- how the tool ends -/
inductive Result
  /-- with an error -/
  | error
  /-- "Nothing to do": lines 372-375. The exit code says that all is well -/
  | nothing
  /-- the models that were written; and the model that --viz compares to the input -/
  | wrote (files : List (Dest × CamOut)) (shown : CamOut)

/-- lines 276-306: the options are checked. `true`: they are accepted -/
noncomputable def argsOk (a : Args) : Bool :=
  !(a.all && a.monocular) && !(a.sampled && a.monocular) && !(a.sampled && a.all) &&
  match a.distance with
  | none => true
  | some none => false
  | some (some d) => open Classical in decide (∀ x ∈ d, 0 < x)

def dest (a : Args) (sub : List Char) : Dest := if a.model = ['-'] then .stdout else .file (replaceCamid sub (template a))

/-- lines 839-866 -/
noncomputable def output (a : Args) (M : CamIn) (s : Solved) : Option (List (Dest × CamOut) × CamOut) :=
  match a.all, s.inputs with
  | true, some J =>
    if J.intr.length = 1 then   -- line 509
      let m := { s.m_to with rt_cam_ref := rt_from_Rt (composeRt s.implied (Rt_from_rt M.rt_cam_ref) false false) }
      some ([(dest a [], m)], m)
    else do
      let files ← (List.range J.intr.length).mapM fun (i : Nat) => (modelOf a.target J i).map fun m => (dest a (camSuffix i), m)
      let last ← files.getLast?
      some (files, last.2)
  | _, _ =>
    let m := { s.m_to with rt_cam_ref := rt_from_Rt (composeRt s.implied (Rt_from_rt M.rt_cam_ref) false false) }
    some ([(dest a [], m)], m)

/-- from the name of a lens model: lines 326-341. All the models have gradients: mrcal.c:254-288 -/
def lensOf (name : List Char) : Option Lens :=
  match Name.fromName (some name) with
  | .ok l => some l
  | _ => none

/-- the tool. Simplified: if something fails after a file was written (with --all), that's an error here -/
noncomputable def run (env : Env) (a : Args) (M : CamIn) : Result :=
  if ¬ argsOk a then .error
  else match lensOf a.target with
    | none => .error
    | some L =>
      if a.model ≠ ['-'] ∧ env.pathExists (template a) ∧ ¬ a.force then .error   -- lines 364-367
      else if M.lensName = a.target then .nothing
      else match if a.sampled then sample env a L M else resolve env a L M with
        | none => .error
        | some s =>
          match output a M s with
          | none => .error
          | some r => .wrote r.1 r.2

end Mrcal.Convert
