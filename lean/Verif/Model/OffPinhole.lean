import Verif.Model.OpenCV
import Verif.Model.ValidRegion
import Verif.Model.Project
import Mathlib.Analysis.SpecialFunctions.Trigonometric.Arctan
/-
How far a lens is off a pinhole: `show_distortion_off_pinhole_radial()` visualization.py:2157-2402, `show_distortion_off_pinhole()` visualization.py:2404-2563.
Modelled: the curves, markers, ranges and vectors that are given to gnuplotlib. The strings of gnuplot equations are modelled by the functions that they express
(the numbers are written in full by Python, and gnuplot's arithmetic is exact here). Not modelled: styles, titles, and gnuplot itself.
-/
namespace Mrcal.OffPinhole
open Mrcal.Cam

/-- the model that's looked at -/
structure Camera where
  /-- `lensmodel_metadata_and_config()['has_core']` -/
  hasCore : Bool
  core : Core
  /-- `some N`: the name of the model has OPENCVN in it: visualization.py:2241-2243 -/
  opencv : Option Nat
  /-- `intrinsics_data[4:]` visualization.py:2237 -/
  dist : Nat → ℝ
  W : Nat
  H : Nat
  /-- `mrcal.unproject()`. `none`: something isn't finite -/
  unproject : P2 → Option P3
  /-- `mrcal.project()` -/
  project : P3 → P2

/-- degrees off the optical axis: visualization.py:2304 -/
noncomputable def thDeg (v : P3) : ℝ := 180 / Real.pi * atan2 (Real.sqrt (v.x * v.x + v.y * v.y)) v.z

/-- the text `1. + r*r * ({} + r*r * ({} + r*r * {}))` visualization.py:2273,2277 -/
noncomputable def poly (a b c r : ℝ) : ℝ := 1 + r * r * (a + r * r * (b + r * r * c))

/-- `scale`: visualization.py:2268-2281 -/
noncomputable def radialScale (N : Nat) (k : Nat → ℝ) (r : ℝ) : ℝ :=
  let k2 := k 0
  let k4 := k 1
  let k6 := if N ≥ 5 then k 4 else 0
  let numerator := poly k2 k4 k6 r
  if N ≥ 8 then numerator / poly (k 5) (k 6) (k 7) r else numerator

/-- "THIS model": visualization.py:2274,2279,2288 -/
noncomputable def opencvCurve (N : Nat) (k : Nat → ℝ) (x : ℝ) : ℝ :=
  180 / Real.pi * Real.arctan (Real.tan (x * Real.pi / 180) * radialScale N k (Real.tan (x * Real.pi / 180)))

/-- the curve titled "stereographic": visualization.py:2330 -/
noncomputable def fisheyeStereographic (x : ℝ) : ℝ := 180 / Real.pi * Real.arctan (2 * Real.tan (x * Real.pi / 180 / 2))

/-- `np.linspace(a, b, n)[i]` of pixels: visualization.py:2386 -/
noncomputable def along (a b : P2) (n i : Nat) : P2 := ⟨Project.linspace a.x b.x n i, Project.linspace a.y b.y n i⟩

/-- the corners, then the pixels (x, cy) at the x edges and (cx, y) at the y edges: visualization.py:2307-2317 -/
noncomputable def corners (c : Camera) : List P2 := [⟨0, 0⟩, ⟨0, c.H - 1⟩, ⟨c.W - 1, 0⟩, ⟨c.W - 1, c.H - 1⟩]
noncomputable def yEdges (c : Camera) : List P2 := [⟨c.core.cx, 0⟩, ⟨c.core.cx, c.H - 1⟩]
noncomputable def xEdges (c : Camera) : List P2 := [⟨0, c.core.cy⟩, ⟨c.W - 1, c.core.cy⟩]

/-- `th[m]`: the angles of the pixels that can be unprojected: visualization.py:2298-2305, 2319-2326 -/
noncomputable def markers (c : Camera) (q : List P2) : List ℝ := q.filterMap fun q => (c.unproject q).map thDeg

/-- the 8 targets: visualization.py:2378-2385 -/
noncomputable def targets (c : Camera) : List P2 :=
  [⟨0, 0⟩, ⟨c.core.cx, 0⟩, ⟨c.W - 1, 0⟩, ⟨c.W - 1, c.core.cy⟩, ⟨c.W - 1, c.H - 1⟩, ⟨c.core.cx, c.H - 1⟩, ⟨0, c.H - 1⟩, ⟨0, c.core.cy⟩]

/-- the pinhole angle of a pixel: visualization.py:2388. Unprojecting with a pinhole is always finite -/
noncomputable def thPinhole (c : Camera) (q : P2) : ℝ := thDeg (unpinhole c.core q).v

/-- one empirical curve: (th, th_pinhole) wherever these are finite: visualization.py:2386-2391 -/
noncomputable def empirical (c : Camera) (target : P2) : List (ℝ × ℝ) :=
  (List.range 100).filterMap fun i => (c.unproject (along ⟨c.core.cx, c.core.cy⟩ target 100 i)).map fun v => (thDeg v, thPinhole c (along ⟨c.core.cx, c.core.cy⟩ target 100 i))

/-- `np.max()` of a nonempty array -/
noncomputable def maxOf (a : ℝ) (l : List ℝ) : ℝ := l.foldl max a

/-- what `show_distortion_off_pinhole_radial()` plots -/
structure Radial where
  red : List ℝ
  green : List ℝ
  blue : List ℝ
  xmax : ℝ
  /-- the curve of "THIS model", if it's plotted as an equation -/
  equation : Option (ℝ → ℝ)
  /-- otherwise the sampled curves -/
  sampled : List (List (ℝ × ℝ))

/-- `show_distortion_off_pinhole_radial()` visualization.py:2226-2402. `none`: an exception. The maximum of an empty array is an exception: visualization.py:2353 -/
noncomputable def radial (c : Camera) : Option Radial :=
  if !c.hasCore then none
  else
    match markers c (corners c) ++ markers c (yEdges c) ++ markers c (xEdges c) with
    | [] => none
    | th :: ths =>
      some { red := markers c (xEdges c), green := markers c (yEdges c), blue := markers c (corners c), xmax := maxOf th ths * 1.01,
             equation := c.opencv.map fun N => opencvCurve N c.dist
             sampled := if c.opencv.isNone then (targets c).map (empirical c) else [] }

/-! ### show_distortion_off_pinhole() -/

/-- `grid[i,j]` visualization.py:2499-2502 -/
noncomputable def gridPixel (c : Camera) (gw gh i j : Nat) : P2 := ⟨Project.linspace 0 (c.W - 1) gw j, Project.linspace 0 (c.H - 1) gh i⟩

/-- `dgrid-grid` visualization.py:2504-2507, 2519, 2534 -/
noncomputable def delta (c : Camera) (q : P2) : P2 :=
  let d := c.project ⟨(q.x - c.core.cx) / c.core.fx, (q.y - c.core.cy) / c.core.fy, 1⟩
  ⟨d.x - q.x, d.y - q.y⟩

/-- a cell of the heat map: where gnuplot puts it (its column and row, multiplied by the factors from `imagergrid_using()`: visualization.py:827-831), and its value:
visualization.py:2519-2525 -/
noncomputable def heatCell (c : Camera) (f : ℝ × ℝ) (gw gh i j : Nat) : P2 × ℝ :=
  (⟨j * f.1, i * f.2⟩, Real.sqrt ((delta c (gridPixel c gw gh i j)).x ^ 2 + (delta c (gridPixel c gw gh i j)).y ^ 2))

/-- the heat map: visualization.py:2490-2525. `none`: an exception -/
noncomputable def heatMap (c : Camera) (gw : Nat) (gh : Option Nat) : Option (List (P2 × ℝ)) :=
  (ModelDiff.gridHeight gw gh c.W c.H).bind fun gh =>
    if !c.hasCore then none
    else (Region.gridUsing c.W c.H gw (some gh)).map fun f => (List.range gh).flatMap fun i => (List.range gw).map fun j => heatCell c f gw gh i j

/-- a vector: from, and the change: visualization.py:2530-2535, 2547-2551 -/
noncomputable def vectorAt (c : Camera) (scale : ℝ) (q : P2) : P2 × P2 := (q, ⟨(delta c q).x * scale, (delta c q).y * scale⟩)

/-- the vectors, row by row -/
noncomputable def vectors (c : Camera) (scale : ℝ) (gw : Nat) (gh : Option Nat) : Option (List (P2 × P2)) :=
  (ModelDiff.gridHeight gw gh c.W c.H).bind fun gh =>
    if !c.hasCore then none
    else some ((List.range gh).flatMap fun i => (List.range gw).map fun j => vectorAt c scale (gridPixel c gw gh i j))

/-- plot options, by name. A value is a list of strings -/
abbrev Opts := String → Option (List String)

def setOpt (o : Opts) (k : String) (v : Option (List String)) : Opts := fun k' => if k' = k then v else o k'

/-- the text of the outline of the imager: visualization.py:2539 -/
def outline (W H : Nat) : String := "object 1 rectangle from 0,0 to " ++ toString W ++ "," ++ toString H ++ " fillstyle empty"

/-- the plot options of a vector field: visualization.py:2537-2545. A list extended with itself is doubled -/
def vectorOpts (c : Camera) (o : Opts) : Opts :=
  let o := setOpt o "_xrange" (some [toString (-50 : Int), toString (c.W + 50)])
  let o := setOpt o "_yrange" (some [toString (c.H + 50), toString (-50 : Int)])
  let o := setOpt o "_set" (some [outline c.W c.H])
  let o := setOpt o "square" (some ["True"])
  match o "_set" with
  | some l =>
    let o := setOpt o "_set" (some (l ++ l))
    setOpt o "_set" none
  | none => o

end Mrcal.OffPinhole
