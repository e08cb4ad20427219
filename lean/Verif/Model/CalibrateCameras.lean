import Verif.Model.Outliers
import Verif.Model.LensName
import Verif.Model.CameraModel
/-
The tool mrcal-calibrate-cameras: /repo/mrcal-calibrate-cameras:316-923, from the parsed options and the corners to the models that are written. What it calls is given: mrcal.optimize(), mrcal.seed_stereographic(), the
estimates of the poses of the boards, the random numbers.

Not modelled: the parsing of the command line and its globs; the search for the corners; the valid-intrinsics region; the reports; --explore. Numbers are real. Lens models are compared as names in the code:
here they're values. An option that's given as an empty string is not modelled. Arrays are values: mrcal.optimize() modifies the arrays it's given, and nobody else has them.
-/
namespace Mrcal.Calibrate

open Mrcal Mrcal.Pose

/-- a model given with --seed -/
structure SeedModel where
  lens : Lens
  intr : List ℝ
  rt_cam_ref : RtV
  size : Int × Int

/-- the options -/
structure Args where
  /-- the number of globs: at least 1, argparse takes care of that -/
  Ncameras : Nat
  lensmodel : Option Lens
  /-- the option --focal. `some none`: that isn't a list of numbers -/
  focal : Option (Option (List ℝ))
  /-- the option --seed: the models that each of the globs matches -/
  seed : Option (List (List SeedModel))
  imagersize : Option (Int × Int)
  pairs : Bool
  skipRegularization : Bool
  skipOutlierRejection : Bool
  skipExtrinsics : Bool
  skipIntrinsics : Bool
  skipWarp : Bool

/-- what is known after the options are checked -/
inductive Start
  | focal (f : List ℝ)
  | seed (m : List SeedModel)

/-- lines 680-765: the checks; the lens model, and what to start with. `none`: exits with an error -/
noncomputable def checkArgs (a : Args) : Option (Lens × Start) :=
  if a.Ncameras > 10 then none
  else if a.pairs && a.Ncameras % 2 ≠ 0 then none
  else match a.seed with
    | some globs =>
      if a.focal.isSome then none
      else if globs.any fun g => g.isEmpty then none
      else
        let m := globs.flatten
        if a.Ncameras ≠ m.length then none
        else match m with
          | [] => none
          | m0 :: rest =>
            if rest.any fun x => decide (m0.lens ≠ x.lens) then none
            else match a.lensmodel with
              | none => some (m0.lens, .seed m)
              | some l => if l ≠ m0.lens then none else some (l, .seed m)
    | none =>
      match a.focal with
      | none => none
      | some none => none
      | some (some f) =>
        if ∃ x ∈ f, ¬ x > 0 then none
        else if ¬ (f.length = 1 ∨ f.length = a.Ncameras) then none
        else match a.lensmodel with
          | none => none
          | some l =>
            if a.skipExtrinsics then none
            else if a.skipIntrinsics then none
            else some (l, .focal f)

/-- a corner: x, y, weight -/
abbrev Corner := ℝ × ℝ × ℝ

/-- an image with corners in it, lines 769-778: `indices_frame_camera`, `observations`; and the size of the file, if it can be read -/
structure Image where
  frame : Nat
  cam : Nat
  corners : List Corner
  size : Option (Int × Int)

def Start.seeds : Start → Option (List SeedModel)
  | .focal _ => none
  | .seed m => some m

/-- both sizes are known, and they differ: lines 335-336, 361-362, 366-367 -/
def conflict : Option (Int × Int) → Option (Int × Int) → Bool
  | some a, some b => decide (a ≠ b)
  | _, _ => false

/-- `wh_seed` lines 329-331. The outer `none`: there's no such model, an exception -/
def seedSize (seeds : Option (List SeedModel)) (icam : Nat) : Option (Option (Int × Int)) :=
  match seeds with
  | none => some none
  | some m => m[icam]?.map fun (s : SeedModel) => some s.size

/-- what is returned: lines 374-383 -/
def pickSize : Option (Int × Int) → Option (Int × Int) → Option (Int × Int) → Option (Int × Int)
  | some a, _, _ => some a
  | none, some s, _ => some s
  | none, none, i => i

/-- `get_imagersize_one` lines 316-383. `none`: exits with an error -/
def imagerSizeOne (images : List Image) (arg : Option (Int × Int)) (seeds : Option (List SeedModel)) (icam : Nat) : Option (Int × Int) :=
  match seedSize seeds icam with
  | none => none
  | some whSeed =>
    if conflict arg whSeed then none
    else match images.find? fun (i : Image) => decide (i.cam = icam) with
      | none => none
      | some im =>
        if conflict im.size arg then none
        else if conflict im.size whSeed then none
        else pickSize arg whSeed im.size

/-- lines 785-791 -/
def imagerSizes (a : Args) (st : Start) (images : List Image) : Option (List (Int × Int)) :=
  (List.range a.Ncameras).mapM (imagerSizeOne images a.imagersize st.seeds)

/-- the arrays that mrcal.optimize() modifies -/
structure Arrays where
  intr : List (List ℝ)
  rt_cam_ref : List RtV
  rt_ref_frame : List RtV
  observations : List (List Corner)
  calobject_warp : Option (ℝ × ℝ)

/-- the functions that are called. `none`: an exception -/
structure Env where
  /-- mrcal.optimize(). The remaining arguments are always the same: the indices, the sizes of the imagers, the spacing -/
  optimize : Lens → Sel → Arrays → Option Arrays
  /-- mrcal.seed_stereographic(): the intrinsics, rt_cam_ref, rt_ref_frame. The arguments are the sizes, and --focal; the observations are always the same -/
  seedStereographic : List (Int × Int) → List ℝ → Option (List (List ℝ) × List RtV × List RtV)
  /-- estimate_monocular_calobject_poses_Rt_tocam(), then estimate_joint_frame_poses(): lines 528-541. The arguments are the models and Rt_cam_ref -/
  framePoses : List SeedModel → List Rt → Option (List RtV)
  /-- np.random.random() -/
  random : Nat → Nat → ℝ

/-- np.mean() of the first two columns, of all the cameras: line 466 -/
noncomputable def meanFocal (intr : List (List ℝ)) : ℝ :=
  ((intr.flatMap fun k => k.take 2).sum) / (intr.flatMap fun k => k.take 2).length

/-- lines 465-470 -/
noncomputable def resetCore (sizes : List (Int × Int)) (intr : List (List ℝ)) : List (List ℝ) :=
  let f := meanFocal intr
  List.zipWith (fun (_ : List ℝ) (s : Int × Int) => [f, f, ((s.1 : ℝ) - 1) / 2, ((s.2 : ℝ) - 1) / 2]) intr sizes

/-- the selections of the preliminary solves: lines 430-435, 449-454, 480-485. The extrinsics and the frames are optimized by default -/
def preSel (core : Bool) : Sel := ⟨core, false, true, true, false, false, false, false⟩

/-- lines 457-486 -/
noncomputable def splinedSeed (env : Env) (lens : Lens) (sizes : List (Int × Int)) (A : Arrays) : Option Arrays :=
  if lens.isSplined then env.optimize .stereographic (preSel false) { A with intr := resetCore sizes A.intr } else some A

/-- `compute_seed()` lines 407-493: intrinsics, Rt_cam_ref, rt_ref_frame, observations -/
noncomputable def computeSeed (env : Env) (lens : Lens) (sizes : List (Int × Int)) (focal : List ℝ) (obs : List (List Corner)) : Option (List (List ℝ) × List Rt × List RtV × List (List Corner)) := do
  let (intr, ext, frames) ← env.seedStereographic sizes focal
  let A ← env.optimize .stereographic (preSel false) ⟨intr, ext, frames, obs, none⟩
  let A ← env.optimize .stereographic (preSel true) A
  let A ← splinedSeed env lens sizes A
  pure (A.intr, A.rt_cam_ref.map Rt_from_rt, A.rt_ref_frame, A.observations)

/-- `compute_seed_from_existing_models()` lines 495-585 -/
noncomputable def seedFromModels (env : Env) (seeds : List SeedModel) (obs : List (List Corner)) : Option (List (List ℝ) × List Rt × List RtV × List (List Corner)) :=
  match seeds with
  | [] => none
  | m0 :: rest =>
    let Rt_r0 := invertRt (Rt_from_rt m0.rt_cam_ref)
    let ext := rest.map fun m => composeRt (Rt_from_rt m.rt_cam_ref) Rt_r0 false false
    (env.framePoses seeds ext).map fun frames => (seeds.map SeedModel.intr, ext, frames, obs)

/-- the number in "OPENCV([0-9]+)", if any: lines 607-609 -/
def opencvN : Lens → Nat
  | .opencv4 => 4
  | .opencv5 => 5
  | .opencv8 => 8
  | .opencv12 => 12
  | _ => 0

/-- `expand_intrinsics()` lines 601-626. `none`: more intrinsics than the lens model has, and np.random.random() raises an exception -/
noncomputable def expand (random : Nat → Nat → ℝ) (lens : Lens) (intr : List (List ℝ)) : Option (List (List ℝ)) :=
  if ∃ k ∈ intr, (k.length : Int) > lens.numParams then none else some <| intr.mapIdx fun i k => k ++ (List.range (lens.numParams - k.length).toNat).map fun j =>
    (random i j - 0.5) * 2 * 1e-6 * (if opencvN lens ≥ 8 ∧ 5 ≤ j ∧ j < 8 then 1e-3 else 1)

/-- lines 589-598 -/
noncomputable def startValues (env : Env) (lens : Lens) (st : Start) (sizes : List (Int × Int)) (obs : List (List Corner)) : Option (List (List ℝ) × List Rt × List RtV × List (List Corner)) :=
  match st with
  | .focal f => computeSeed env lens sizes f obs
  | .seed m => seedFromModels env m obs

/-- `solve_initial()` lines 386-669: what is passed to the last mrcal.optimize() there, and the arrays after it -/
noncomputable def solveInitial (env : Env) (a : Args) (lens : Lens) (st : Start) (sizes : List (Int × Int)) (obs : List (List Corner)) : Option (Sel × Arrays) := do
  let (intr, ext, frames, obs) ← startValues env lens st sizes obs
  let sel : Sel := ⟨!a.skipIntrinsics && !lens.isSplined, !a.skipIntrinsics, !a.skipExtrinsics, true, false, true, !a.skipOutlierRejection, false⟩
  let intr ← expand env.random lens intr
  let A ← env.optimize lens sel ⟨intr, ext.map rt_from_Rt, frames, obs, none⟩
  pure (sel, A)

/-- the extra solve if the last one has no regularization: lines 814-824 -/
def regularizedFirst (env : Env) (a : Args) (lens : Lens) (sel : Sel) (A : Arrays) : Option Arrays :=
  if a.skipRegularization then env.optimize lens { sel with regularization := true } A else some A

/-- the final solve: lines 793-826. The selections and the arrays that are stored in the models -/
noncomputable def solve (env : Env) (a : Args) (lens : Lens) (st : Start) (sizes : List (Int × Int)) (obs : List (List Corner)) : Option (Sel × Arrays) := do
  let (sel, A) ← solveInitial env a lens st sizes obs
  let A := { A with calobject_warp := if a.skipWarp then none else some (0, 0) }
  let sel := { sel with warp := !a.skipWarp, regularization := !a.skipRegularization, outlierRejection := !a.skipOutlierRejection }
  let A ← regularizedFirst env a lens sel A
  let A ← env.optimize lens sel A
  pure (sel, A)

/-- a file that is written -/
structure Written where
  /-- the name, without the directory -/
  name : List Char
  lens : Lens
  intr : List ℝ
  size : Int × Int
  rt_cam_ref : RtV
  /-- the optimization inputs -/
  sel : Sel
  arrays : Arrays

/-- lines 915-920 -/
def fileName (pairs : Bool) (icam : Nat) : List Char :=
  if pairs then "camera".toList ++ Name.printNat (icam / 2) ++ "-".toList ++ Name.printNat (icam % 2) ++ ".cameramodel".toList
  else "camera-".toList ++ Name.printNat icam ++ ".cameramodel".toList

/-- one model: lines 849-853 with cameramodel.py:1258-1279, 1593-1605; lines 913-922. The checks of cameramodel.py:106-123 and those of the size of the intrinsics are not repeated here -/
noncomputable def writeOne (a : Args) (lens : Lens) (sizes : List (Int × Int)) (images : List Image) (sel : Sel) (A : Arrays) (icam : Nat) : Option Written := do
  let intr ← A.intr[icam]?
  let size ← sizes[icam]?
  -- lines 401-404: the extrinsics of camera i are i-1
  let indices : List Outliers.CamIdx := images.map fun i => ((i.cam : Int), (i.cam : Int) - 1)
  match Outliers.pyCorrespondingIcamExtrinsics icam A.intr.length A.rt_cam_ref.length indices [] with
  | .ok (some e) =>
    let rt ← if e < 0 then some identityrt else A.rt_cam_ref[e.toNat]?
    pure ⟨fileName a.pairs icam, lens, intr, size, rt, sel, A⟩
  | _ => none

/-- the tool: the files that it writes, in order. `none`: it ends with an error before it writes anything -/
noncomputable def run (env : Env) (a : Args) (images : List Image) : Option (List Written) := do
  let (lens, st) ← checkArgs a
  let sizes ← imagerSizes a st images
  let (sel, A) ← solve env a lens st sizes (images.map Image.corners)
  (List.range A.intr.length).mapM (writeOne a lens sizes images sel A)

end Mrcal.Calibrate
