import Verif.Model.RosFile
/-
`mrcal-from-kalibr` and `mrcal-to-kalibr`; and `mrcal-graft-models`. What is modelled of a .yaml file is the dictionary that the yaml parser produces. Numbers are exact, and are the ones that were written.
`none`: an error.
-/
namespace Mrcal.Kalibr
open Mrcal.Cam Mrcal.Pose Mrcal.CahvorFile

/-- a camera model, as these tools see it: `intrinsics()`, `Rt_cam_ref()`, `imagersize()`. The cameramodel class stores rt_cam_ref; that this is consistent with Rt_cam_ref is C83 -/
structure Model where
  lens : Lens
  intr : List ℝ
  /-- Rt_cam_ref -/
  pose : Rt
  dims : Int × Int

/-- what is in the file for one camera. `none`: the key isn't there -/
structure Camera where
  camera_model : Option String
  intrinsics : Option (List ℝ)
  /-- all of `intrinsics` are integers -/
  ints : Bool
  distortion_model : Option String
  distortion_coeffs : Option (List ℝ)
  cahvore_linearity : Option ℚ
  /-- the rows of T_cn_cnm1 -/
  T : Option (List (List ℝ))
  resolution : Option (List Int)

/-- the file: one camera; or several with names -/
inductive File where
  | inline (c : Camera)
  | cameras (l : List (String × Camera))

open Classical in
/-- `Rt_is_identity` mrcal-from-kalibr:157-162, mrcal-to-kalibr:104-109 -/
noncomputable def isIdentity (T : Rt) : Bool :=
  let cos_th := (T.R.a00 + T.R.a11 + T.R.a22 - 1) / 2
  let th_sq := (1 - cos_th) * 2
  let norm2_t := T.t.x * T.t.x + T.t.y * T.t.y + T.t.z * T.t.z
  decide (norm2_t < 1e-12 ∧ th_sq < 1e-12)

/-! ### mrcal-from-kalibr -/

/-- `np.array(d['resolution'])`, and the check in the constructor of cameramodel -/
def dimsOf (c : Camera) : Option (Int × Int) :=
  match c.resolution with
  | some [w, h] => if w ≤ 0 ∨ h ≤ 0 then none else some (w, h)
  | _ => none

/-- C,A,H,V,O,R,E, and what `_construct_model()` gets: mrcal-from-kalibr:220-246 -/
def cahvorOf (c : Camera) (dims : Int × Int) (cahvore : Bool) (x : List ℝ) : Option CahvorFile.File :=
  let v (i : Nat) : P3 := ⟨x.getD (3 * i) 0, x.getD (3 * i + 1) 0, x.getD (3 * i + 2) 0⟩
  if x.length ≠ (if cahvore then 7 * 3 else 6 * 3) then none
  else some { cahvore := if cahvore then some (3, some (c.cahvore_linearity.getD (37 / 100))) else none, dims := dims,
              C := v 0, A := v 1, H := v 2, V := v 3, aDigits := c.ints, O := some (v 4), R := some (v 5), E := if cahvore then some (v 6) else none,
              ocv4 := none, ocv5 := none, ocv8 := none, ocv12 := none, region := none }

/-- the lens model: mrcal-from-kalibr:183-255: the lens, the intrinsics and the imager size -/
noncomputable def readLens (c : Camera) : Option (Lens × List ℝ × (Int × Int)) := do
  let camera_model ← c.camera_model
  if camera_model = "pinhole" then do
    let distortion_model ← c.distortion_model
    let x ← c.intrinsics
    let dims ← dimsOf c
    if distortion_model = "radtan" then do
      let k ← c.distortion_coeffs
      if (x ++ k).length ≠ 8 then none else some (.opencv4, x ++ k, dims)
    else if distortion_model = "none" then if x.length ≠ 4 then none else some (.pinhole, x, dims)
    else none
  else if camera_model = "cahvor" ∨ camera_model = "cahvore" then do
    if c.distortion_model ≠ none then none
    else do
      let x ← c.intrinsics
      let dims ← dimsOf c
      let f ← cahvorOf c dims (decide (camera_model = "cahvore")) x
      let m ← CahvorFile.read f
      if isIdentity (invertRt m.pose) then some (m.lens, m.intr, dims) else none
  else none

open Classical in
/-- `Rt_cam_camprev` mrcal-from-kalibr:258-289 -/
noncomputable def readT (c : Camera) : Option Rt :=
  match c.T with
  | none => some identityRt
  | some [[a, b, e, x], [f, g, h, y], [i, j, k, z], [l, m, n, o]] =>
    if l ≠ 0 ∨ m ≠ 0 ∨ n ≠ 0 ∨ o ≠ 1 then none
    else if RosFile.rotError ⟨a, b, e, f, g, h, i, j, k⟩ > 1e-12 then none
    else some ⟨⟨a, b, e, f, g, h, i, j, k⟩, ⟨x, y, z⟩⟩
  | some _ => none

/-- `convert_one` mrcal-from-kalibr:164-305. `prev`: Rt_camprev_ref -/
noncomputable def readOne (cam0_at_reference : Bool) (prev : Option Rt) (c : Camera) : Option Model := do
  let m ← readLens c
  let Rt_cam_camprev ← readT c
  let Rt_cam_ref := match prev with
    | some prev => composeRt Rt_cam_camprev prev false false
    | none => if cam0_at_reference then identityRt else Rt_cam_camprev
  some ⟨m.1, m.2.1, Rt_cam_ref, m.2.2⟩

/-- the loop mrcal-from-kalibr:349-354 -/
noncomputable def readAll (cam0_at_reference : Bool) : Option Rt → List (String × Camera) → Option (List (String × Model))
  | _, [] => some []
  | prev, (name, c) :: l => do
    let m ← readOne cam0_at_reference prev c
    let ms ← readAll cam0_at_reference (some m.pose) l
    some ((name, m) :: ms)

/-- `convert_all` mrcal-from-kalibr:308-363. The names of the output: `none` for a single camera -/
noncomputable def fromKalibr (cam0_at_reference : Bool) (which : Option String) (f : File) : Option (List (Option String × Model)) :=
  match f with
  | .inline c => if which ≠ none then none else (readOne cam0_at_reference none c).map fun m => [(none, m)]
  | .cameras [] => none
  | .cameras l =>
    match which with
    | none => (readAll cam0_at_reference none l).map fun ms => ms.map fun x => (some x.1, x.2)
    | some name =>
      if (l.any fun x => decide (x.1 = name)) = false then none
      else (readAll cam0_at_reference none l).bind fun ms => (ms.find? fun x => decide (x.1 = name)).map fun x => [(some x.1, x.2)]

/-! ### mrcal-to-kalibr -/

/-- the lens model: mrcal-to-kalibr:135-182. The model with the identity pose is passed to `_deconstruct_model()`. (A negative linearity is written; CahvorFile.write refuses that) -/
noncomputable def writeLens (m : Model) : Option Camera :=
  let c : CModel := ⟨m.lens, m.intr, identityRt, m.dims, none⟩
  let f := writeCahv c
  let l (v : P3) : List ℝ := [v.x, v.y, v.z]
  let cahv := l f.C ++ l f.A ++ l f.H ++ l f.V ++ l (writeO c) ++ l (writeR c)
  let base : Camera := ⟨none, none, false, none, none, none, none, some [m.dims.1, m.dims.2]⟩
  match m.lens with
  | .opencv4 => some { base with camera_model := some "pinhole", intrinsics := some (m.intr.take 4), distortion_model := some "radtan", distortion_coeffs := some (m.intr.drop 4) }
  | .pinhole => some { base with camera_model := some "pinhole", intrinsics := some (m.intr.take 4), distortion_model := some "none", distortion_coeffs := some (m.intr.drop 4) }
  | .cahvor => some { base with camera_model := some "cahvor", intrinsics := some cahv }
  | .cahvore lin => some { base with camera_model := some "cahvore", intrinsics := some (cahv ++ l (writeE c)), cahvore_linearity := some lin }
  | _ => none

/-- the (4,4) matrix mrcal-to-kalibr:188-190 -/
def rowsT (T : Rt) : List (List ℝ) :=
  [[T.R.a00, T.R.a01, T.R.a02, T.t.x], [T.R.a10, T.R.a11, T.R.a12, T.t.y], [T.R.a20, T.R.a21, T.R.a22, T.t.z], [0, 0, 0, 1]]

/-- `convert_one` mrcal-to-kalibr:111-212. `prev`: Rt_ref_camprev -/
noncomputable def writeOne (cam0_at_reference : Bool) (i : Nat) (prev : Option Rt) (m : Model) : Option Camera := do
  let Rt_cam_camprev := match prev with
    | some prev => composeRt m.pose prev false false
    | none => if cam0_at_reference then identityRt else m.pose
  let c ← writeLens m
  if i = 0 ∧ isIdentity Rt_cam_camprev = true then some { c with T := none }
  else some { c with T := some (rowsT Rt_cam_camprev) }

/-- the loop mrcal-to-kalibr:215 -/
noncomputable def writeAll (cam0_at_reference : Bool) : Nat → Option Rt → List Model → Option (List (String × Camera))
  | _, _, [] => some []
  | i, prev, m :: ms => do
    let c ← writeOne cam0_at_reference i prev m
    let l ← writeAll cam0_at_reference (i + 1) (some (invertRt m.pose)) ms
    some ((s!"cam{i}", c) :: l)

/-- mrcal-to-kalibr -/
noncomputable def toKalibr (cam0_at_reference : Bool) (ms : List Model) : Option File := (writeAll cam0_at_reference 0 none ms).map File.cameras

/-! ### mrcal-graft-models -/

/-- mrcal-graft-models:201-225. `Rt10`: what `projection_diff()` reported for (model_intrinsics, model_extrinsics); none if --radius is 0. Simplified: in terms of Rt transformations instead of rt -/
noncomputable def graft (intrinsics extrinsics : Model) (Rt10 : Option Rt) : Model :=
  match Rt10 with
  | none => { intrinsics with pose := extrinsics.pose }
  | some Rt10 => { intrinsics with pose := composeRt (invertRt Rt10) extrinsics.pose false false }

end Mrcal.Kalibr
