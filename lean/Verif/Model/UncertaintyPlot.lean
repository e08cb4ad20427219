import Verif.Model.Overlay
import Verif.Model.OffPinhole
/-
The plot of the uncertainty of projection across the imager: `show_projection_uncertainty()` visualization.py:1668-1905
-/
namespace Mrcal.UncertaintyPlot
open Mrcal Mrcal.Cam

/-- what `projection_uncertainty()` is asked for: visualization.py:1840-1844 -/
structure Query where
  method : String
  atinfinity : Bool
  isotropic : Bool
  noise : Option ℝ

/-- what's used of a model. `unproject` has normalize=True: `none` if this failed. `uncertainty`: `projection_uncertainty()` of a point in the coordinates of the camera: `none` if it's not finite -/
structure Camera where
  W : Nat
  H : Nat
  unproject : P2 → Option P3
  uncertainty : Query → P3 → Option ℝ
  region : Option (List P2)
  inputs : Option Overlay.Inputs
  icam : Int

/-- the arguments. `observations`: `none` is False, `some true` is 'dots'. `title` is kwargs['title'], `distanceText` is how python writes the distance -/
structure Args where
  gw : Nat
  gh : Option Nat
  noise : Option ℝ
  observations : Option Bool
  region : Bool
  distance : Option ℝ
  distanceText : String
  isotropic : Bool
  method : String
  extratitle : Option String
  title : Option String

/-- the result: the heat map (the place of each cell, and its value, row by row), the region, the observations, and the title -/
structure Plot where
  heat : List (P2 × ℝ)
  region : Option (List P2)
  observations : List Overlay.Curve
  title : String

/-- `known_methods` visualization.py:1825-1827 -/
def methods : List String := ["mean-pcam", "cross-reprojection-rrp-Jfp", "cross-reprojection-ccp"]

/-- one element of `err` visualization.py:1836-1848. If the pixel can't be unprojected then `pcam` is 0 or nan, and the uncertainty isn't finite -/
noncomputable def err (c : Camera) (a : Args) (q : P2) : ℝ :=
  match c.unproject q with
  | none => 1e6
  | some v =>
    let s := match a.distance with | none => 1 | some d => d
    match c.uncertainty ⟨a.method, a.distance.isNone, a.isotropic, a.noise⟩ ⟨v.x * s, v.y * s, v.z * s⟩ with
    | none => 1e6
    | some e => e

/-- `sample_imager()` utils.py:321-323: the pixel in row i, column j -/
noncomputable def pixel (c : Camera) (gw gh i j : Nat) : P2 := ⟨Project.linspace 0 (c.W - 1) gw j, Project.linspace 0 (c.H - 1) gh i⟩

/-- the title: visualization.py:1850-1864 -/
def title (a : Args) : String :=
  match a.title with
  | some t => t
  | none =>
    let d := match a.distance with | none => ". Looking out to infinity" | some _ => ". Looking out to " ++ a.distanceText ++ "m"
    let w := if !a.isotropic then "Projection" else "Isotropic projection"
    let t := w ++ " uncertainty (in pixels) based on calibration input noise" ++ d
    match a.extratitle with
    | none => t
    | some e => t ++ (": " ++ e)

/-- `show_projection_uncertainty()` visualization.py:1825-1905. `none`: an exception. gnuplot puts a cell at its column and row multiplied by the factors of `imagergrid_using()`: visualization.py:827-831 -/
noncomputable def plot (c : Camera) (a : Args) : Option Plot :=
  if a.method ∉ methods then none
  else
    match ModelDiff.gridHeight a.gw a.gh c.W c.H with
    | none => none
    | some gh =>
      match Region.gridUsing c.W c.H a.gw (some gh) with
      | none => none
      | some f =>
        let heat := (List.range gh).flatMap fun (i : Nat) => (List.range a.gw).map fun (j : Nat) => ((⟨j * f.1, i * f.2⟩ : P2), err c a (pixel c a.gw gh i j))
        let region := if a.region then c.region else none
        match a.observations with
        | none => some ⟨heat, region, [], title a⟩
        | some dots => (Overlay.overlay [] c.inputs c.icam "" (if dots then -1 else 1) false none).map fun o => ⟨heat, region, o, title a⟩

end Mrcal.UncertaintyPlot
