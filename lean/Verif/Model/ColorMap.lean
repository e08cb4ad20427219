import Verif.Model.Stereo
import Mathlib.Analysis.SpecialFunctions.Trigonometric.Basic
/-
Color-coding of images: mrcal_apply_color_map_...() in stereo.c. Arithmetic is exact: `float` is ℝ.
-/
namespace Mrcal.ColorMap
open Mrcal.Stereo

/-- the switch in `gnuplot_color_formula` stereo.c:987-1113. `none`: no such formula -/
noncomputable def formulaValue (n : Nat) (x : ℝ) : Option ℝ :=
  match n with
  | 0 => some 0
  | 1 => some (1 / 2)
  | 2 => some 1
  | 3 => some x
  | 4 => some (x * x)
  | 5 => some (x * x * x)
  | 6 => some (x * x * x * x)
  | 7 => some (Real.sqrt x)
  | 8 => some (Real.sqrt (Real.sqrt x))
  | 9 => some (Real.sin (90 * x * Real.pi / 180))
  | 10 => some (Real.cos (90 * x * Real.pi / 180))
  | 11 => some |x - 1 / 2|
  | 12 => some ((2 * x - 1) * (2 * x - 1))
  | 13 => some (Real.sin (180 * x * Real.pi / 180))
  | 14 => some |Real.cos (180 * x * Real.pi / 180)|
  | 15 => some (Real.sin (360 * x * Real.pi / 180))
  | 16 => some (Real.cos (360 * x * Real.pi / 180))
  | 17 => some |Real.sin (360 * x * Real.pi / 180)|
  | 18 => some |Real.cos (360 * x * Real.pi / 180)|
  | 19 => some |Real.sin (720 * x * Real.pi / 180)|
  | 20 => some |Real.cos (720 * x * Real.pi / 180)|
  | 21 => some (3 * x)
  | 22 => some (3 * x - 1)
  | 23 => some (3 * x - 2)
  | 24 => some |3 * x - 1|
  | 25 => some |3 * x - 2|
  | 26 => some (3 / 2 * x - 1 / 2)
  | 27 => some (3 / 2 * x - 1)
  | 28 => some |3 / 2 * x - 1 / 2|
  | 29 => some |3 / 2 * x - 1|
  | 30 => some (if x ≤ 25 / 100 then 0 else if x ≥ 57 / 100 then 1 else x / (32 / 100) - 78125 / 100000)
  | 31 => some (if x ≤ 42 / 100 then 0 else if x ≥ 92 / 100 then 1 else 2 * x - 84 / 100)
  | 32 => some (if x ≤ 42 / 100 then x * 4 else if x ≤ 92 / 100 then -2 * x + 184 / 100 else x / (8 / 100) - 115 / 10)
  | 33 => some |2 * x - 1 / 2|
  | 34 => some (2 * x)
  | 35 => some (2 * x - 1 / 2)
  | 36 => some (2 * x - 1)
  | _ => none

/-- `gnuplot_color_formula` stereo.c:977-1120. `none` is the return value `false`: nothing is written. -INT_MIN isn't modelled -/
noncomputable def colorFormula (formula : Int) (x : ℝ) : Option Nat :=
  let (x, formula) := if formula < 0 then (1 - x, -formula) else (x, formula)
  match formulaValue formula.toNat x with
  | none => none
  | some x =>
    let x := if x ≤ 0 then 0 else if x ≥ 1 then 1 else x
    some ⌊1 / 2 + 255 * x⌋₊

/-- an instantiation of DEFINE_mrcal_apply_color_map(): stereo.c:1227-1238. The pixels, T_MIN, T_MAX and the value of `(float)(a - b)` -/
structure PixelType (α : Type) where
  tmin : α
  tmax : α
  diff : α → α → ℝ

/-- a signed integer of this many bits -/
def wrapSigned (bits : Nat) (v : Int) : Int := (v + 2 ^ (bits - 1)) % 2 ^ bits - 2 ^ (bits - 1)

/-- uint8_t, uint16_t, uint32_t, uint64_t stereo.c:1227-1230. Arithmetic on uint8_t and uint16_t is done with `int`: this has enough room; otherwise with the type itself -/
def uintT (bits : Nat) : PixelType Int where
  tmin := 0
  tmax := 2 ^ bits - 1
  diff a b := ((if bits < 32 then a - b else (a - b) % 2 ^ bits : Int) : ℝ)

/-- int8_t, int16_t, int32_t, int64_t stereo.c:1232-1235. Signed overflow is undefined in C; here it wraps, as the usual compilers do -/
def intT (bits : Nat) : PixelType Int where
  tmin := -2 ^ (bits - 1)
  tmax := 2 ^ (bits - 1) - 1
  diff a b := ((if bits < 32 then a - b else wrapSigned bits (a - b) : Int) : ℝ)

/-- float stereo.c:1237. FLT_MIN is the smallest positive normal number. NaN and infinities are not modelled -/
noncomputable def floatT : PixelType ℝ where
  tmin := 1 / 2 ^ 126
  tmax := (2 ^ 24 - 1) * 2 ^ 104
  diff a b := a - b

/-- double stereo.c:1238 -/
noncomputable def doubleT : PixelType ℝ where
  tmin := 1 / 2 ^ 1022
  tmax := (2 ^ 53 - 1) * 2 ^ 971
  diff a b := a - b

structure Bgr where
  b : Nat
  g : Nat
  r : Nat

/-- `for(y<h) for(x<w)`: the pixels in the order of the loops -/
def pixels {α : Type} (im : Image α) : List α := (List.range im.height).flatMap fun y => (List.range im.width).map fun x => im.px x y

/-- the search for the bounds stereo.c:1180-1192 -/
def bounds {α : Type} [LinearOrder α] (T : PixelType α) (im : Image α) (auto_min auto_max : Bool) (in_min in_max : α) : α × α :=
  if auto_min || auto_max then
    let in_min := if auto_min then T.tmax else in_min
    let in_max := if auto_max then T.tmin else in_max
    (pixels im).foldl (fun b v =>
      let in_min := if auto_min && decide (v < b.1) then v else b.1
      let in_max := if auto_max && decide (v > b.2) then v else b.2
      (in_min, in_max)) (in_min, in_max)
  else (in_min, in_max)

/-- the input to the formulas stereo.c:1209-1215 -/
noncomputable def fraction {α : Type} [LinearOrder α] (T : PixelType α) (in_min in_max v : α) : ℝ :=
  if v ≤ in_min then 0
  else if v ≥ in_max then 1
  else T.diff v in_min / T.diff in_max in_min

/-- the color of one pixel stereo.c:1217-1220: red is computed first, then green, then blue; we stop at the first failure. (the new pixel, success) -/
noncomputable def colorPixel (fr fg fb : Int) (x : ℝ) (out : Bgr) : Bgr × Bool :=
  match colorFormula fr x with
  | none => (out, false)
  | some r =>
    match colorFormula fg x with
    | none => ({ out with r := r }, false)
    | some g =>
      match colorFormula fb x with
      | none => ({ out with r := r, g := g }, false)
      | some b => (⟨b, g, r⟩, true)

/-- one pixel of the loop -/
noncomputable def colorStep {α : Type} [LinearOrder α] (T : PixelType α) (im : Image α) (fr fg fb : Int) (in_min in_max : α) (s : (Nat → Nat → Bgr) × Bool) (xy : Nat × Nat) : (Nat → Nat → Bgr) × Bool :=
  if !s.2 then s
  else
    let p := colorPixel fr fg fb (fraction T in_min in_max (im.px xy.1 xy.2)) (s.1 xy.1 xy.2)
    (fun x y => if x = xy.1 ∧ y = xy.2 then p.1 else s.1 x y, p.2)

/-- `mrcal_apply_color_map_...` stereo.c:1146-1225: (the output image, the return value) -/
noncomputable def applyColorMap {α : Type} [LinearOrder α] (T : PixelType α) (out : Image Bgr) (im : Image α) (auto_min auto_max auto_function : Bool) (in_min in_max : α)
    (function_red function_green function_blue : Int) : Image Bgr × Bool :=
  if ¬ (im.width = out.width ∧ im.height = out.height) then (out, false)
  else
    let b := bounds T im auto_min auto_max in_min in_max
    let f : Int × Int × Int := if auto_function then (7, 5, 15) else (function_red, function_green, function_blue)
    let r := ((List.range im.height).flatMap fun y => (List.range im.width).map fun x => (x, y)).foldl (colorStep T im f.1 f.2.1 f.2.2 b.1 b.2) (out.px, true)
    (⟨out.width, out.height, r.1⟩, r.2)

end Mrcal.ColorMap
