import Verif.Model.CahvorFile
import Mathlib.Algebra.Order.Archimedean.Real.Basic
import Mathlib.Algebra.Order.Floor.Ring
/-
OpenCV and ROS files: cameramodel.py:895-1163 (reading), 1374-1454 (writing). The yaml and json parsers aren't modelled: what is modelled starts at the dictionary they produce, and
ends at the values that are written. Numbers are exact.
-/
namespace Mrcal.RosFile
open Mrcal.Cam Mrcal.Pose Mrcal.CahvorFile

/-- What the yaml parser produces -/
inductive Yaml where
  /-- a number -/
  | num (x : ℝ)
  | str (s : String)
  /-- a list of numbers -/
  | list (l : List ℝ)
  /-- lists of lists, all of the same length, at least 2: the numbers in order -/
  | nested (l : List ℝ)
  /-- anything else that isn't a dictionary: numpy can't make an array of numbers of this -/
  | other
  /-- `null` -/
  | null
  | dict (entries : List (String × Yaml))

/-- `find_sequence(s,d)` cameramodel.py:1019-1030. The keys of a dictionary are all different, so the first one that matches is the only one. The caller ignores a match that is None -/
def findSequence : List String → List (String × Yaml) → Option Yaml
  | [], _ => none
  | [k], d =>
    match d.find? (fun e => e.1 = k) with
    | none => none
    | some (_, .dict _) => none
    | some (_, .null) => none
    | some (_, v) => some v
  | k :: k' :: ks, d =>
    match d.find? (fun e => e.1 = k) with
    | some (_, .dict d') => findSequence (k' :: ks) d'
    | _ => none

/-- the search in `find_array()`: exactly one of the key sequences must be there: cameramodel.py:1032-1040 -/
def findOne (seqs : List (List String)) (d : List (String × Yaml)) : Option Yaml :=
  match seqs.filterMap (fun s => findSequence s d) with
  | [v] => some v
  | _ => none

/-- `np.array(m,dtype=float).reshape(shape)`: cameramodel.py:1041-1050. `n` is the number of elements -/
def asArray (n : Nat) : Yaml → Option (List ℝ)
  | .num x => if n = 1 then some [x] else none
  | .list l => if l.length = n then some l else none
  | .nested l => if l.length = n then some l else none
  | _ => none

/-- `find_array(..., dtype=int, shape=())`: the conversion from a number truncates. Bools, and strings with digits, aren't modelled -/
noncomputable def asInt : Yaml → Option Int
  | .num x => some (if 0 ≤ x then ⌊x⌋ else ⌈x⌉)
  | .list [x] => some (if 0 ≤ x then ⌊x⌋ else ⌈x⌉)
  | _ => none

/-- `find_array(..., dtype=str, shape=())`. A number would be converted to a string here, and not be found in the table of the models later -/
def asStr : Yaml → Option String
  | .str s => some s
  | _ => none

/-- `[float(x) for x in distortion]`: cameramodel.py:1118-1131: it works for a list of numbers only -/
def asFloats : Yaml → Option (List ℝ)
  | .list l => some l
  | _ => none

/-- a (3,3) array -/
def toM3 : List ℝ → M3
  | [a, b, c, d, e, f, g, h, i] => ⟨a, b, c, d, e, f, g, h, i⟩
  | _ => identityR

open Classical in
/-- the camera matrix: cameramodel.py:1057-1069. Returns fx,fy,cx,cy -/
noncomputable def readK (d : List (String × Yaml)) : Option (List ℝ) :=
  ((findOne [["camera_matrix", "data"], ["camera_matrix"], ["K"]] d).bind (asArray 9)).bind fun l =>
  let M := toM3 l
  if M.a01 ≠ 0 ∨ M.a10 ≠ 0 ∨ M.a20 ≠ 0 ∨ M.a21 ≠ 0 ∨ M.a22 ≠ 1 then none
  else some [M.a00, M.a11, M.a02, M.a12]

open Classical in
/-- the projection matrix: cameramodel.py:1071-1080, 1095-1096. A matrix that is all 0 means [I 0] -/
noncomputable def readP (d : List (String × Yaml)) : Option (List ℝ) :=
  ((findOne [["projection_matrix", "data"], ["projection_matrix"], ["P"]] d).bind (asArray 12)).bind fun l =>
  if l.getD 7 0 ≠ 0 ∨ l.getD 11 0 ≠ 0 then none
  else if (l.map (fun x => x * x)).sum = 0 then some [1, 0, 0, 0, 0, 1, 0, 0, 0, 0, 1, 0]
  else some l

open Classical in
/-- the rotation: cameramodel.py:1082-1092, 1097-1098. Any failure means the identity; 0 too -/
noncomputable def readRot (d : List (String × Yaml)) : M3 :=
  match (findOne [["rotation", "data"], ["rotation"], ["R"]] d).bind (asArray 9) with
  | none => identityR
  | some l => if (l.map (fun x => x * x)).sum = 0 then identityR else toM3 l

/-- `norm2((R R^T - I).ravel())`: cameramodel.py:1152 -/
def rotError (R : M3) : ℝ :=
  let E := mul R (transpose R)
  (E.a00 - 1) * (E.a00 - 1) + E.a01 * E.a01 + E.a02 * E.a02 + E.a10 * E.a10 + (E.a11 - 1) * (E.a11 - 1) + E.a12 * E.a12 +
  E.a20 * E.a20 + E.a21 * E.a21 + (E.a22 - 1) * (E.a22 - 1)

/-- the lens model: cameramodel.py:1100-1116 -/
def readLens (d : List (String × Yaml)) : Option Lens := do
  let s ← (findOne [["distortion_model"]] d).bind asStr
  if s = "plumb_bob" then some .opencv5
  else if s = "rational_polynomial" then some .opencv8
  else none

open Classical in
/-- `parse_as_opencv_or_ros()` and then the checks of the constructor: cameramodel.py:985-1163, 70-100. `none` is an exception. P[0,0] = 0: the library divides by 0, and the
infinity (or NaN) can't be parsed afterwards. The model stores `rt_from_Rt(invert_Rt(Rt_ref_cam))`: the conversions are C25, C26, C32; here `pose` is Rt_ref_cam -/
noncomputable def read (d : List (String × Yaml)) : Option CModel := do
  let K ← readK d
  let P ← readP d
  let R := readRot d
  let L ← readLens d
  let k ← (findOne [["distortion_coefficients", "data"], ["distortion_coefficients"], ["D"]] d).bind asFloats
  let w ← (findOne [["image_width"], ["width"]] d).bind asInt
  let h ← (findOne [["image_height"], ["height"]] d).bind asInt
  if rotError R > 1e-12 then none
  else if P.getD 0 0 = 0 then none
  else if w ≤ 0 ∨ h ≤ 0 then none
  else if ((K ++ k).length : Int) ≠ L.numParams then none
  else some { lens := L, intr := K ++ k, pose := ⟨R, ⟨-P.getD 3 0 / P.getD 0 0, -P.getD 7 0 / P.getD 0 0, -P.getD 11 0 / P.getD 0 0⟩⟩, dims := (w, h), region := none }

/-- the name of the distortion model and the coefficients: cameramodel.py:1410-1427 -/
def writeDistortions (m : CModel) : Option (String × List ℝ) :=
  match m.lens with
  | .opencv5 => some ("plumb_bob", m.intr.drop 4)
  | .opencv4 => some ("plumb_bob", m.intr.drop 4 ++ [0])
  | .pinhole => some ("plumb_bob", m.intr.drop 4 ++ [0, 0, 0, 0, 0])
  | .opencv8 => some ("rational_polynomial", m.intr.drop 4)
  | _ => none

/-- the dictionary in the file `write_opencv()` produces: cameramodel.py:1374-1454 -/
def write (m : CModel) : Option (List (String × Yaml)) :=
  (writeDistortions m).map fun (name, k) =>
    [("image_width", .num m.dims.1), ("image_height", .num m.dims.2), ("camera_name", .str "mrcalmodel"),
     ("camera_matrix", .dict [("rows", .num 3), ("cols", .num 3), ("data", .list [at' m.intr 0, 0, at' m.intr 2, 0, at' m.intr 1, at' m.intr 3, 0, 0, 1])]),
     ("distortion_model", .str name),
     ("distortion_coefficients", .dict [("rows", .num 1), ("cols", .num k.length), ("data", .list k)]),
     ("rectification_matrix", .dict [("rows", .num 3), ("cols", .num 3), ("data", .list [1, 0, 0, 0, 1, 0, 0, 0, 1])]),
     ("projection_matrix", .dict [("rows", .num 3), ("cols", .num 4), ("data", .list [1, 0, 0, 0, 0, 1, 0, 0, 0, 0, 1, 0])])]

end Mrcal.RosFile
