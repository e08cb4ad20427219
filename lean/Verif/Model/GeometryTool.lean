import Verif.Model.Quaternion
import Verif.Model.ShowResiduals
/-
The command line of mrcal-show-geometry: lines 129-160, 198-214, and the legacy file with transforms that it reads: `read_transforms()` cahvor.py:419-484. The plot itself is in `ShowGeometry`.

Simplified: a line of the file is given as what the regular expressions at cahvor.py:437, 440-449, 459-461 made of it, with the numbers read; `int()` and the regular expressions at mrcal-show-geometry:145 accept blanks, too: not modelled.
-/
namespace Mrcal.GeometryTool
open Mrcal Mrcal.Quaternion

/-! ### the file with transforms -/

/-- a line: cahvor.py:437, 447-449, 459-461. `pos` and `quat` are the numbers in the parentheses, in the order of the file -/
inductive Line
  | blank
  | ins2veh (pos : P3) (quat : ℝ × ℝ × ℝ × ℝ)
  | cam2ins (i : Nat) (pos : P3) (quat : ℝ × ℝ × ℝ × ℝ)
  | other

/-- `Rt_from_qt( np.array((q0,q1,q2,q3, x,y,z)) )` cahvor.py:454-456, 467-469 -/
def pose (pos : P3) (quat : ℝ × ℝ × ℝ × ℝ) : Rt := Rt_from_qt ⟨⟨quat.1, quat.2.1, quat.2.2.1, quat.2.2.2⟩, pos⟩

/-- `x` cahvor.py:431-434 -/
structure Transforms where
  veh_from_ins : Option Rt
  /-- a dict: `none` if there's no such key -/
  ins_from_camera : Nat → Option Rt

/-- one line: cahvor.py:436-473. `none`: an exception. (`raise("...")` in lines 452, 465 raises a TypeError: a string isn't an exception) -/
def step (x : Transforms) (l : Line) : Option Transforms :=
  match l with
  | .blank => some x
  | .ins2veh p q => if x.veh_from_ins.isSome then none else some { x with veh_from_ins := some (pose p q) }
  | .cam2ins i p q => if (x.ins_from_camera i).isSome then none else some { x with ins_from_camera := fun n => if n = i then some (pose p q) else x.ins_from_camera n }
  | .other => none

/-- `read_transforms()` cahvor.py:419-484. The check at 475 is that neither value is None; a dict never is -/
def readTransforms (ls : List Line) : Option Transforms :=
  (ls.foldlM step ⟨none, fun _ => none⟩).bind fun x => if x.veh_from_ins.isNone then none else some x

/-! ### which transforms are used -/

/-- `re.search("camera([0-9]+)", f)` and `int(m.group(1))` mrcal-show-geometry:203-206. `none`: an exception -/
def pairOf : List Char → Option Nat
  | [] => none
  | c :: l =>
    if (['c', 'a', 'm', 'e', 'r', 'a'].isPrefixOf (c :: l)) && decide (((c :: l).drop 6).takeWhile Name.isDigit ≠ []) then some (Name.decVal (((c :: l).drop 6).takeWhile Name.isDigit))
    else pairOf l

/-- `Rt_plot_ref` mrcal-show-geometry:207-214: one for each model -/
def plotRefs (x : Transforms) (files : List (List Char)) : List (Option Rt) := files.map fun f => (pairOf f).bind x.ins_from_camera

/-- `show_geometry(cameras_Rt_plot_ref = ...)`, a list: visualization.py:282-292. `none`: an exception. With None in the list, `np.array()` either throws, or makes an array of NaN whose shape is wrong -/
def accepted (l : List (Option Rt)) : Option (List Rt) := l.mapM id

/-! ### the cameras of a solve -/

/-- what icam_extrinsics_fromsolve is -/
inductive Icams
  | all
  | list (l : List Int)

/-- `range(i0,i1+1)` mrcal-show-geometry:157 -/
def rangeInt (i0 i1 : Int) : List Int := (List.range (i1 + 1 - i0).toNat).map fun (k : Nat) => i0 + k

/-- `"^ *(-?[0-9]+)-([0-9]+) *$"` mrcal-show-geometry:145 -/
def dashRange (s : List Char) : Option (Int × Int) :=
  match s with
  | '-' :: l => (ShowResiduals.splitDash l).bind fun p => (ShowResiduals.number p.1).bind fun a => (ShowResiduals.number p.2).map fun b => (-(a : Int), (b : Int))
  | l => (ShowResiduals.splitDash l).bind fun p => (ShowResiduals.number p.1).bind fun a => (ShowResiduals.number p.2).map fun b => ((a : Int), (b : Int))

/-- `list_ints_from_range_string` mrcal-show-geometry:138-157. `none`: the tool exits with an error -/
def item (s : List Char) : Option (List Int) :=
  match Reproject.pyInt s with
  | some i => some [i]
  | none => (dashRange s).map fun r => rangeInt r.1 r.2

/-- the option icam-extrinsics-from-solve: mrcal-show-geometry:129-160. `none`: the tool exits with an error -/
def icams (s : List Char) (nmodels : Nat) : Option Icams :=
  if nmodels > 1 then none
  else if s = ['a', 'l', 'l'] then some .all
  else (((Reproject.splitComma s).mapM item).map List.flatten).map .list

end Mrcal.GeometryTool
