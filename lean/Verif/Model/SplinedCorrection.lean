import Verif.Model.Polyline
import Verif.Model.Cameras
import Verif.Model.ValidRegion
import Verif.Model.Project
/-
`show_splined_model_correction()` visualization.py:2711-3100. Modelled: what's given to gnuplotlib, and the warning. Not modelled: styles, labels, the observations (visualization.py:3050-3058), and gnuplot itself (the
strings `using` are modelled by the functions that they express). Arithmetic is exact.
-/
namespace Mrcal.SplinedCorrection
open Mrcal Mrcal.Cam Mrcal.Spline Mrcal.Polyline

/-- the model that's looked at, and the functions that are called -/
structure Camera where
  name : String
  /-- `re.match('LENSMODEL_SPLINED_STEREOGRAPHIC', lensmodel)` visualization.py:2890. If so, the configuration is: -/
  splined : Bool
  order : Nat
  Nx : Nat
  Ny : Nat
  segs : ℝ
  intr : Int → ℝ
  W : Nat
  H : Nat
  /-- `mrcal.unproject()`. `none`: not finite -/
  unproject : P2 → Option P3
  /-- `model.valid_intrinsics_region()` -/
  region : Option (List P2)
  /-- `mrcal.polygon_difference()`. `none`: an exception -/
  polygonDifference : List P2 → List P2 → Option (List (List P2))

/-- the arguments -/
structure Args where
  vectorfield : Bool
  xy : Option String
  imagerDomain : Bool
  vectorscale : ℝ
  validRegion : Bool
  gw : Nat
  gh : Option Nat

/-- the given title, or the default one: visualization.py:2899-2905. The string in visualization.py:2902 isn't an f-string -/
def title (name : String) (given extra xy : Option String) : String :=
  match given with
  | some t => t
  | none =>
    let t := "Correction for " ++ name
    let t := if xy.isSome then t ++ ". Looking at deltau{xy}" else t
    match extra with
    | some e => t ++ ": " ++ e
    | none => t

/-- `mrcal.project_stereographic()`, `mrcal.unproject_stereographic()` with the default core -/
noncomputable def toU (v : P3) : P2 := (stereographic ⟨1, 1, 0, 0⟩ v).q
noncomputable def fromU (u : P2) : P3 := (unstereographic ⟨1, 1, 0, 0⟩ u).v

/-- `mrcal.project()` with the splined model. `none`: an assert -/
noncomputable def project (c : Camera) (v : P3) : Option P2 := (projectSplined c.order c.Nx c.Ny c.segs c.intr v).map fun p => p.q

/-- `q[i,j]`, `u[i,j]`: visualization.py:2909-2927. `none`: not finite -/
noncomputable def gridQU (c : Camera) (a : Args) (gh i j : Nat) : Option (P2 × P2) :=
  if a.imagerDomain then
    let q : P2 := ⟨Project.linspace 0 (c.W - 1) a.gw j, Project.linspace 0 (c.H - 1) gh i⟩
    (c.unproject q).map fun v => (q, toU v)
  else
    let u : P2 := ⟨Project.linspace (knot c.Nx c.segs 0) (knot c.Nx c.segs (c.Nx - 1)) a.gw j, Project.linspace (knot c.Ny c.segs 0) (knot c.Ny c.segs (c.Ny - 1)) gh i⟩
    (project c (fromU u)).map fun q => (q, u)

/-- `deltau = (q - cxy) / fxy - u` visualization.py:2929-2931 -/
noncomputable def deltau (c : Camera) (qu : P2 × P2) : P2 := ⟨(qu.1.x - c.intr 2) / c.intr 0 - qu.2.x, (qu.1.y - c.intr 3) / c.intr 1 - qu.2.y⟩

/-- where gnuplot puts the cell in row i, column j: visualization.py:2974-2983. `none`: undefined, since it divides by 0 -/
noncomputable def place (c : Camera) (a : Args) (gh i j : Nat) : Option P2 :=
  if a.gw = 1 ∨ gh = 1 then none
  else if a.imagerDomain then some ⟨j / (a.gw - 1) * (c.W - 1), i / (gh - 1) * (c.H - 1)⟩
  else some ⟨knot c.Nx c.segs 0 + j / (a.gw - 1) * (knot c.Nx c.segs (c.Nx - 1) - knot c.Nx c.segs 0),
             knot c.Ny c.segs 0 + i / (gh - 1) * (knot c.Ny c.segs (c.Ny - 1) - knot c.Ny c.segs 0)⟩

/-- the value of a cell: visualization.py:2985-2992 -/
noncomputable def value (a : Args) (d : P2) : ℝ :=
  match a.xy with
  | some s => if s = "x" then d.x else d.y
  | none => Real.sqrt (d.x * d.x + d.y * d.y)

/-- a vector: from, and the change: visualization.py:2995-3013 -/
noncomputable def vector (c : Camera) (a : Args) (qu : P2 × P2) : P2 × P2 :=
  if a.imagerDomain then (qu.1, ⟨a.vectorscale * c.intr 0 * (deltau c qu).x, a.vectorscale * c.intr 1 * (deltau c qu).y⟩)
  else (qu.2, ⟨a.vectorscale * (deltau c qu).x, a.vectorscale * (deltau c qu).y⟩)

/-- what's drawn at a point of the grid -/
inductive Mark
  | cell (place : Option P2) (value : Option ℝ)
  | arrow (v : Option (P2 × P2))

noncomputable def mark (c : Camera) (a : Args) (gh i j : Nat) : Mark :=
  if a.vectorfield then .arrow ((gridQU c a gh i j).map (vector c a))
  else .cell (place c a gh i j) ((gridQU c a gh i j).map fun qu => value a (deltau c qu))

/-- `imager_boundary_sparse` visualization.py:2933-2944. `none`: an exception -/
noncomputable def sparse (c : Camera) (a : Args) : Option (List P2) :=
  if a.validRegion then c.region
  else some [⟨0, 0⟩, ⟨c.W - 1, 0⟩, ⟨c.W - 1, c.H - 1⟩, ⟨0, c.H - 1⟩, ⟨0, 0⟩]

/-- `imager_boundary` visualization.py:2946-2954: `none` in the list isn't finite. An array that isn't 2-dimensional is an exception in visualization.py:3061-3063 -/
noncomputable def boundary (c : Camera) (a : Args) : Option (List (Option P2)) :=
  (sparse c a).bind fun s =>
    if a.imagerDomain then some (s.map some)
    else
      match densify 50 (some s) with
      | .rows l => some (l.map fun q => (c.unproject q).map toU)
      | .flat _ => none
      | .none => none

/-- `domain_contour`, `knots` visualization.py:3015-3031. `none` in the list: an assert in project() -/
noncomputable def contour (c : Camera) (a : Args) : Option (List P2) :=
  (splineDomain c.order c.Nx c.Ny c.segs).bind fun l => if a.imagerDomain then l.mapM fun u => project c (fromU u) else some l

noncomputable def knots (c : Camera) (a : Args) : Option (List P2) :=
  let l : List P2 := (List.range c.Ny).flatMap fun i => (List.range c.Nx).map fun j => ⟨knot c.Nx c.segs j, knot c.Ny c.segs i⟩
  if a.imagerDomain then l.mapM fun u => project c (fromU u) else some l

/-- `invalid_regions` visualization.py:3061-3072 -/
noncomputable def invalid (c : Camera) (b : List (Option P2)) (d : List P2) : List (List P2) := (c.polygonDifference (b.filterMap id) d).getD []

/-- everything that's plotted, and whether there's a warning -/
structure Plot where
  marks : List Mark
  boundary : List (Option P2)
  contour : List P2
  knots : List P2
  invalid : List (List P2)
  warning : Bool

/-- `show_splined_model_correction()` visualization.py:2880-3099. `none`: an exception -/
noncomputable def plot (c : Camera) (a : Args) : Option Plot :=
  if a.xy.isSome && a.vectorfield then none
  else if !(a.xy = none || a.xy = some "x" || a.xy = some "y") then none
  else if !c.splined then none
  else do
    let gh ← ModelDiff.gridHeight a.gw a.gh c.W c.H
    let b ← boundary c a
    let d ← contour c a
    let k ← knots c a
    let inv := invalid c b d
    some ⟨(List.range gh).flatMap fun i => (List.range a.gw).map fun j => mark c a gh i j, b, d, k, inv, inv.length > 0⟩

end Mrcal.SplinedCorrection
