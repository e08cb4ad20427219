import Verif.Model.LensName
import Verif.Model.Rodrigues
/-
The mrcal.cameramodel class: mrcal/cameramodel.py. What the object stores, its getters and setters, and the (de)serialization of the optimization inputs.

`K` is the type of numbers: ℝ where poses are computed, ℚ where numbers are printed. `T` is the type of the stored pose. Arrays are values: the class copies them when setting
and when getting, cameramodel.py:1577-1578, 1589-1591, 1653-1857.
-/
namespace Mrcal.CamModel
open Mrcal.Name

/-! ### dictionaries -/

/-- the values found in the dict of optimization inputs. An array has a type, a shape and its elements. Not modelled: numbers that numpy can't represent, strings that end with a 0 byte, arrays of objects
and strings -/
inductive PyVal where
  | none
  | bool (b : Bool)
  | int (i : Int)
  | float (q : ℚ)
  | str (s : String)
  | array (dtype : String) (shape : List Nat) (data : List ℚ)
deriving DecidableEq

/-- a python dict. The order of the keys isn't modelled: a key that is written again moves to the end -/
abbrev Dict := List (String × PyVal)

/-- `d.get(k)` -/
def Dict.get (d : Dict) (k : String) : Option PyVal := (d.find? fun p => p.1 = k).map Prod.snd
/-- `del d[k]` -/
def Dict.del (d : Dict) (k : String) : Dict := d.filter fun p => p.1 ≠ k
/-- `d[k] = v` -/
def Dict.set (d : Dict) (k : String) (v : PyVal) : Dict := d.del k ++ [(k, v)]

/-! ### serialization -/

/-- `new_keys_with_default_values_to_ignore` cameramodel.py:243-246 -/
def newKeys : List String := ["do_apply_regularization_unity_cam01", "observations_point_triangulated", "indices_point_triangulated_camintrinsics_camextrinsics"]

/-- what is skipped: cameramodel.py:252-256. `not v` for what's not an array -/
def PyVal.isDefault : PyVal → Bool
  | .none => true
  | .bool b => !b
  | .int i => decide (i = 0)
  | .float q => decide (q = 0)
  | .str s => decide (s = "")
  | .array _ shape _ => decide (shape.prod = 0)

/-- `if v is None: v = ''` -/
def PyVal.orEmpty : PyVal → PyVal
  | .none => .str ""
  | v => v

/-- the first loop of `_serialize_optimization_inputs` cameramodel.py:247-258 -/
def normalize (d : Dict) : Dict :=
  d.filterMap fun (k, v) => if k ∈ newKeys ∧ v.orEmpty.isDefault then Option.none else some (k, v.orEmpty)

/-- `equal` cameramodel.py:283-284: `not np.any(v_from-v_to)`; False if the difference can't be computed. Broadcasting isn't modelled: arrays of different shapes aren't equal -/
def pyEqual : PyVal → PyVal → Bool
  | .array _ s a, .array _ s' a' => decide (s = s' ∧ a = a')
  | .int a, .int b => decide (a = b)
  | .float a, .float b => decide (a = b)
  | .int a, .float b => decide ((a : ℚ) = b)
  | .float a, .int b => decide (a = b)
  | _, _ => false

/-- `isinstance(x,str) and x.startswith('ERROR:')` -/
def isPoison : Option PyVal → Bool
  | some (.str s) => "ERROR:".toList.isPrefixOf s.toList
  | _ => false

/-- `renamed_write_old_name` cameramodel.py:262-294. `none`: exception -/
def renamedWriteOldName (src dst : String) (d : Dict) : Option Dict :=
  let v_to := (d.get dst).getD (.str "")
  let d := if isPoison (d.get src) then d.set src v_to else d
  let v_from := (d.get src).getD (.str "")
  if v_from ≠ .str "" then
    if v_to = .str "" then some d
    else if pyEqual v_from v_to then some (d.del dst) else none
  else
    let d := if v_to ≠ .str "" then d.set src v_to else d
    some (d.del dst)

/-- `_serialize_optimization_inputs` cameramodel.py:160-303: the dict that is then encoded. `none`: exception -/
def serializeDict (d : Dict) : Option Dict := do
  let d ← renamedWriteOldName "frames_rt_toref" "rt_ref_frame" (normalize d)
  renamedWriteOldName "extrinsics_rt_fromref" "rt_cam_ref" d

/-- what numpy reads from what it saved: everything is an array then; cameramodel.py:331-335 takes the element of an array without dimensions, and '' is None -/
def PyVal.loaded : PyVal → PyVal
  | .str s => if s = "" then .none else .str s
  | .array dtype [] (x :: _) => if dtype = "bool" then .bool (decide (x ≠ 0)) else if dtype = "float64" then .float x else .int x.floor
  | v => v

/-- the poison: cameramodel.py:353 -/
def poison (src dst : String) : PyVal :=
  .str ("ERROR: mrcal 2.5 renamed optimization_inputs fields: \"" ++ src ++ "\" -> \"" ++ dst ++ "\". Please update your code to use the new name")

/-- `renamed` cameramodel.py:339-353 -/
def renamed (src dst : String) (poisonold : Bool) (d : Dict) : Dict :=
  let d := match d.get src, d.get dst with
    | some v, none => (d.set dst v).del src
    | _, _ => d
  if poisonold then d.set src (poison src dst) else d

/-- `_deserialize_optimization_inputs` cameramodel.py:310-387, after the decoding -/
def deserializeDict (d : Dict) : Dict :=
  let d : Dict := d.map fun (k, v) => (k, v.loaded)
  let d := renamed "do_optimize_intrinsic_core" "do_optimize_intrinsics_core" false d
  let d := renamed "do_optimize_intrinsic_distortions" "do_optimize_intrinsics_distortions" false d
  let d := renamed "frames_rt_toref" "rt_ref_frame" true d
  let d := renamed "extrinsics_rt_fromref" "rt_cam_ref" true d
  let d := (d.del "calibration_object_width_n").del "calibration_object_height_n"
  if (d.get "rt_cam_ref").getD .none = .none then d.set "rt_cam_ref" (.array "float64" [0, 6] []) else d

/-- np.savez_compressed() and base64.b85encode(): `enc`. base64.b85decode() and np.load(): `dec`; `none`: exception -/
structure Codec where
  enc : Dict → List Char
  dec : List Char → Option Dict

/-! ### the object -/

/-- the attribute _optimization_inputs_string: a python byte string or a python string -/
inductive Stored where
  | bytes (s : List Char)
  | str (s : List Char)
deriving DecidableEq

/-- `str(x)`. This is for a byte string without quotes, backslashes or non-printable characters -/
def Stored.toStr : Stored → Stored
  | .bytes s => .str ('b' :: '\'' :: s ++ ['\''])
  | .str s => .str s

/-- the attributes of a mrcal.cameramodel. _icam_intrinsics and _icam_extrinsics are ints or None -/
structure Obj (K T : Type) where
  imagersize : Int × Int
  lensmodel : List Char
  intrinsics : List K
  region : Option (List (K × K))
  rt_cam_ref : T
  opt : Option Stored
  icamI : Option Int
  icamE : Option Int

/-- `mrcal.lensmodel_num_params(lensmodel)`. `none`: exception. mrcal-pywrap.c:lensmodel_num_params uses mrcal_lensmodel_from_name() -/
def numParams (name : List Char) : Option Nat :=
  match fromName (some name) with
  | .ok L => some L.numParams.toNat
  | _ => none

/-- `_validateIntrinsics` cameramodel.py:62-123. `false`: exception. The types of the arguments are right -/
def validateIntrinsics {K : Type} (imagersize : Int × Int) (intr : Option (List Char × List K)) (opt : Option Dict) (icamI icamE : Option Int) : Bool :=
  if imagersize.1 ≤ 0 ∨ imagersize.2 ≤ 0 then false
  else match intr with
    | none => false
    | some (name, v) =>
      if numParams name ≠ some v.length then false
      else match opt, icamI with
        | some _, none => false
        | some _, some i => decide (0 ≤ i)
        | none, _ => decide (icamI = none ∧ icamE = none)

section region
variable {K : Type} [Field K] [LinearOrder K] [IsStrictOrderedRing K]

/-- squared distance -/
def dist2 (a b : K × K) : K := (a.1 - b.1) * (a.1 - b.1) + (a.2 - b.2) * (a.2 - b.2)

/-- `mrcal.close_contour` utils.py:941-1001 of an array of shape (N,2). The distance is compared with 1e-6 there: squared here -/
def closeContour (c : List (K × K)) : List (K × K) :=
  match c with
  | [] => []
  | a :: l => if dist2 a ((a :: l).getLastD a) < 1 / 1000000000000 then a :: l else a :: l ++ [a]

/-- `_validateValidIntrinsicsRegion` cameramodel.py:126-147 of an array of shape (N,2). `false`: exception -/
def validateRegion : Option (List (K × K)) → Bool
  | none => true
  | some [] => true
  | some (a :: l) => decide (4 ≤ (a :: l).length) && !decide (1 / 1000000 < dist2 a ((a :: l).getLastD a))

end region

section ops
variable {K T : Type}

/-- what a call does: a value is returned, or an exception is raised. The object may have been changed then -/
inductive Outcome where
  | got
  | ok
  | raised
deriving DecidableEq

/-- the arguments of `intrinsics()` -/
structure Args (K : Type) where
  intrinsics : Option (List Char × List K)
  imagersize : Option (Int × Int)
  opt : Option Dict
  icamI : Option Int
  icamE : Option Int

/-- `intrinsics()` cameramodel.py:1478-1613. `corr` is `mrcal.corresponding_icam_extrinsics()`: `none` is an exception. The assignments happen in this order: an exception leaves the earlier ones in place -/
def intrinsicsCall (C : Codec) (corr : Int → Dict → Option Int) (o : Obj K T) (a : Args K) : Obj K T × Outcome :=
  if a.imagersize = none ∧ a.intrinsics.isNone ∧ a.opt = none ∧ a.icamI = none then (o, .got)
  else
    let imagersize := a.imagersize.getD o.imagersize
    if !validateIntrinsics imagersize a.intrinsics a.opt a.icamI a.icamE then (o, .raised)
    else
      match a.intrinsics with
      | none => (o, .raised)
      | some (name, v) =>
        let o : Obj K T := { o with imagersize := imagersize, lensmodel := name, intrinsics := v }
        match a.opt with
        | none => ({ o with opt := none, icamI := none, icamE := none, region := none }, .ok)
        | some d =>
          match serializeDict d with
          | none => (o, .raised)
          | some s =>
            let o : Obj K T := { o with opt := some (.bytes (C.enc s)), icamI := a.icamI }
            match a.icamE with
            | some e => ({ o with icamE := some e, region := none }, .ok)
            | none =>
              match corr (a.icamI.getD 0) d with
              | none => (o, .raised)
              | some e => ({ o with icamE := some e, region := none }, .ok)

/-- `optimization_inputs()` cameramodel.py:1895-1935. The inner `none` is None, the outer one is an exception. The order of the bytes isn't modelled -/
def optimizationInputs (C : Codec) (o : Obj K T) : Option (Option Dict) :=
  match o.opt with
  | none => some none
  | some (.bytes s) => (C.dec s).map fun d => some ((deserializeDict d).set "verbose" (.bool false))
  | some (.str s) => (C.dec s).map fun d => some ((deserializeDict d).set "verbose" (.bool false))

/-- `optimization_inputs_reset()` cameramodel.py:1938-1958 -/
def optimizationInputsReset (o : Obj K T) : Obj K T := { o with opt := none }
/-- `valid_intrinsics_region_reset()` cameramodel.py:1868-1891 -/
def regionReset (o : Obj K T) : Obj K T := { o with region := none }

variable [Field K] [LinearOrder K] [IsStrictOrderedRing K]

/-- `valid_intrinsics_region(...)`, the setter: cameramodel.py:1859-1865 -/
def setRegion (o : Obj K T) (r : List (K × K)) : Obj K T × Outcome :=
  if validateRegion (some (closeContour r)) then ({ o with region := some (closeContour r) }, .ok) else (o, .raised)

/-- mrcal.cameramodel(model): cameramodel.py:866-890 -/
def copy (o : Obj K T) : Obj K T :=
  { o with region := o.region.map closeContour, opt := o.opt.map Stored.toStr }

end ops

section pose
variable {K : Type}
open Mrcal.Pose

/-- the getters of the pose: cameramodel.py:1647-1649, 1688-1690, 1729-1731, 1769-1771 -/
noncomputable def rt_ref_cam (o : Obj K RtV) : RtV := (invertrt o.rt_cam_ref).1
def rt_cam_ref (o : Obj K RtV) : RtV := o.rt_cam_ref
noncomputable def Rt_ref_cam (o : Obj K RtV) : Rt := invertRt (Rt_from_rt o.rt_cam_ref)
noncomputable def Rt_cam_ref (o : Obj K RtV) : Rt := Rt_from_rt o.rt_cam_ref

/-- the setters: cameramodel.py:1652-1654, 1693-1695, 1733-1735, 1773-1775. The legacy aliases cameramodel.py:1778-1792 are these same functions -/
noncomputable def set_rt_ref_cam (o : Obj K RtV) (rt : RtV) : Obj K RtV := { o with rt_cam_ref := (invertrt rt).1 }
def set_rt_cam_ref (o : Obj K RtV) (rt : RtV) : Obj K RtV := { o with rt_cam_ref := rt }
noncomputable def set_Rt_ref_cam (o : Obj K RtV) (Rt : Rt) : Obj K RtV := { o with rt_cam_ref := rt_from_Rt (invertRt Rt) }
noncomputable def set_Rt_cam_ref (o : Obj K RtV) (Rt : Rt) : Obj K RtV := { o with rt_cam_ref := rt_from_Rt Rt }

/-- `_extrinsics_moved_since_calibration` cameramodel.py:1977-1988: the result. `calibrated`: optimization_inputs['rt_cam_ref'][_icam_extrinsics] -/
noncomputable def extrinsicsMoved (icamE : Int) (rt calibrated : RtV) : Prop :=
  if icamE < 0 then 0 < max (max (max |rt.r.x| |rt.r.y|) (max |rt.r.z| |rt.t.x|)) (max |rt.t.y| |rt.t.z|)
  else 1e-6 < max (max (max |rt.r.x - calibrated.r.x| |rt.r.y - calibrated.r.y|) (max |rt.r.z - calibrated.r.z| |rt.t.x - calibrated.t.x|))
    (max |rt.t.y - calibrated.t.y| |rt.t.z - calibrated.t.z|)

end pose

/-! ### construction -/

/-- the arguments of the constructor, without a file. `extr`: the one of the 8 arguments that describe the pose; passing more than one is an exception -/
inductive Extr where
  | Rt_ref_cam (T : Rt)
  | Rt_cam_ref (T : Rt)
  | rt_ref_cam (T : RtV)
  | rt_cam_ref (T : RtV)

/-- an object before its constructor: nothing is set. `imagersize` isn't used: the constructor always has it -/
def blank {K T : Type} (t : T) : Obj K T := ⟨(0, 0), [], [], none, t, none, none, none⟩

/-- setting the pose: cameramodel.py:1241-1252 -/
noncomputable def setExtr {K : Type} (o : Obj K RtV) : Option Extr → Obj K RtV
  | none => set_rt_cam_ref o ⟨⟨0, 0, 0⟩, ⟨0, 0, 0⟩⟩
  | some (.Rt_ref_cam T) => set_Rt_ref_cam o T
  | some (.Rt_cam_ref T) => set_Rt_cam_ref o T
  | some (.rt_ref_cam T) => set_rt_ref_cam o T
  | some (.rt_cam_ref T) => set_rt_cam_ref o T

/-- `valid_intrinsics_region` in the constructor: cameramodel.py:1285-1290. A bad one is skipped, with a warning -/
def setRegionWarn {K T : Type} [Field K] [LinearOrder K] [IsStrictOrderedRing K] (o : Obj K T) (region : Option (List (K × K))) : Obj K T :=
  let o := { o with region := none }
  match region with
  | none => o
  | some r => (setRegion o r).1

/-- the constructor with discrete arguments: cameramodel.py:1232-1256, 1285-1290. `none`: exception -/
noncomputable def construct (C : Codec) (corr : Int → Dict → Option Int) (intrinsics : List Char × List ℝ) (imagersize : Int × Int) (extr : Option Extr)
    (region : Option (List (ℝ × ℝ))) : Option (Obj ℝ RtV) :=
  let o := setExtr (blank Pose.identityrt) extr
  match intrinsicsCall C corr o ⟨some intrinsics, some imagersize, none, none, none⟩ with
  | (o, .ok) => some (setRegionWarn o region)
  | _ => none

/-- `a[i]` of an array with 2 dimensions. `none`: exception. Negative indices count from the end in python: they're refused here because all the callers refuse them too -/
def PyVal.row : Option PyVal → Int → Option (List ℚ)
  | some (.array _ [n, m] data), i => if 0 ≤ i ∧ i < n then some ((data.drop (i.toNat * m)).take m) else Option.none
  | _, _ => Option.none

/-- two integers -/
def sizeOf2 : List ℚ → Option (Int × Int)
  | [w, h] => some (w.floor, h.floor)
  | _ => none

/-- `optimization_inputs['lensmodel']` -/
def lensName : Option PyVal → Option (List Char)
  | some (.str s) => some s.toList
  | _ => none

/-- the constructor with optimization_inputs: cameramodel.py:1258-1279, 1285-1290. `none`: exception -/
def constructOpt (C : Codec) (corr : Int → Dict → Option Int) (d : Dict) (icamI : Int) (icamE : Option Int) (region : Option (List (ℚ × ℚ))) : Option (Obj ℚ (List ℚ)) := do
  let name ← lensName (d.get "lensmodel")
  let v ← PyVal.row (d.get "intrinsics") icamI
  let wh ← PyVal.row (d.get "imagersizes") icamI
  let size ← sizeOf2 wh
  match intrinsicsCall C corr (blank ([] : List ℚ)) ⟨some (name, v), some size, some d, some icamI, icamE⟩ with
  | (o, .ok) =>
    if o.icamE.getD 0 < 0 then some (setRegionWarn { o with rt_cam_ref := [0, 0, 0, 0, 0, 0] } region)
    else match PyVal.row (d.get "rt_cam_ref") (o.icamE.getD 0) with
      | none => none
      | some rt => some (setRegionWarn { o with rt_cam_ref := rt } region)
  | _ => none

end Mrcal.CamModel
