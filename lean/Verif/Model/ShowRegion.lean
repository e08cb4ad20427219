import Verif.Model.Splines
import Verif.Model.ConvertLens
/-
The valid-intrinsics region in plots and images: `show_valid_intrinsics_region()` visualization.py:2566-2709, `annotate_image__valid_intrinsics_region()` visualization.py:3101-3157, and the tool
mrcal-show-valid-intrinsics-region. Modelled: the polylines, legends, titles; what's drawn into the image; which file is written. Not modelled: the image and the points in the plot, styles, what OpenCV does to pixels.
-/
namespace Mrcal.ShowRegion
open Mrcal

/-- a model: its imager size and its region: visualization.py:2653-2661. An empty region is an array of size 0 -/
structure Cam where
  W : Nat
  H : Nat
  region : Option (List P2)

/-- `valid_regions[i].size == 0` visualization.py:2665 -/
def Cam.empty (m : Cam) : Bool :=
  match m.region with
  | some [] => true
  | _ => false

/-- `cameranames`: a list can be modified, a tuple can't -/
inductive Names
  | list (l : List String)
  | tuple (l : List String)

def Names.get : Names → List String
  | .list l => l
  | .tuple l => l

/-- `'Model {}'.format(i)` visualization.py:2648 -/
def defaultNames (n : Nat) : List String := (List.range n).map fun i => "Model " ++ toString i

/-- a polyline in the plot, with its legend -/
structure Curve where
  points : List P2
  legend : String

/-- the regions that are plotted: visualization.py:2664-2666. An empty one is a single point -/
def shown (m : Cam) : List P2 :=
  match m.region with
  | some [] => [⟨0, 0⟩]
  | some r => r
  | none => []

/-- the names after the loop: visualization.py:2664-2667 -/
def marked (models : List Cam) (names : List String) : List String := List.zipWith (fun m n => if m.empty then n ++ ": empty" else n) models names

/-- what comes back, and what `cameranames` of the caller is afterwards -/
structure Shown where
  curves : List Curve
  title : Option String
  after : Option Names

/-- `show_valid_intrinsics_region()` visualization.py:2644-2709. `none`: an exception. Assigning to an element of a tuple is a TypeError. `title`: `some t` if `title=t` is in kwargs; `t` may be None -/
def showRegion (models : List Cam) (names : Option Names) (title : Option (Option String)) (extratitle : Option String) : Option Shown :=
  if (match names with | some n => decide (n.get.length ≠ models.length) | none => false) then none
  else
    match models with
    | [] => none
    | m0 :: rest =>
      if rest.any fun m => decide (m.W ≠ m0.W ∨ m.H ≠ m0.H) then none
      else if models.any fun m => m.region.isNone then none
      else if (match names with | some (.tuple _) => models.any fun m => m.empty | _ => false) then none
      else
        let l := marked models (match names with | some n => n.get | none => defaultNames models.length)
        some { curves := List.zipWith (fun m n => ⟨shown m, n⟩) models l
               title := match title with
                 | some t => t
                 | none => some (match extratitle with | some e => "Valid-intrinsics region" ++ ": " ++ e | none => "Valid-intrinsics region")
               after := names.map fun n => match n with | .list _ => Names.list l | .tuple t => Names.tuple t }

/-! ### images -/

/-- what's drawn by OpenCV: a closed polygon, or a filled circle of radius 10 -/
inductive Drawn
  | polygon (p : List (Int × Int))
  | circle (x y : Int)

/-- `annotate_image__valid_intrinsics_region()` visualization.py:3143-3157. `none`: an exception. `astype(np.int32)` truncates (numbers that don't fit aren't modelled). visualization.py:3150-3152 is never reached -/
noncomputable def annotate (m : Cam) : Option Drawn :=
  match m.region with
  | none => none
  | some [] => some (.circle (((m.W : Int) - 1) / 2) (((m.H : Int) - 1) / 2))
  | some r => some (.polygon (r.map fun p => (Spline.truncC p.x, Spline.truncC p.y)))

/-! ### the tool -/

abbrev Path := List Char

/-- the options -/
structure Options where
  writeImage : Bool
  image : Option Path
  force : Bool
  points : Bool
  /-- the option title -/
  title : Option String
  /-- any of the options hardcopy, terminal, set, unset -/
  plotOptions : Bool
  /-- the names of the models -/
  files : List String

/-- the images on disk, as what has been drawn into each; `none`: there's no such file -/
abbrev Disk := Path → Option (List Drawn)

/-- what happened -/
structure Outcome where
  ok : Bool
  disk : Disk
  plot : Option Shown

def suffix : Path := "valid-intrinsics-region".toList

/-- `target_image_filename()` mrcal-show-valid-intrinsics-region:153-161: this is the second of two functions with this name. The first one (lines 139-151) looks at the option force, but it's replaced by this one. `none`: an error -/
def target (f : Path) : Option Path :=
  let (base, extension) := Convert.splitExt f
  if extension.length ≠ 4 then none else some (base ++ '-' :: (suffix ++ extension))

/-- mrcal-show-valid-intrinsics-region:89-194. `models`: `none` if any couldn't be read. An image that can't be read is an exception -/
noncomputable def tool (o : Options) (models : Option (List Cam)) (disk : Disk) : Outcome :=
  let fail : Outcome := ⟨false, disk, none⟩
  if o.writeImage && (o.image.isNone || o.title.isSome || o.plotOptions || o.points) then fail
  else
    match models with
    | none => fail
    | some models =>
      if models.any fun m => m.region.isNone then fail
      else if o.writeImage then
        match (o.image.getD []) with
        | f =>
          match target f, disk f, models.mapM annotate with
          | some out, some img, some d => ⟨true, fun p => if p = out then some (img ++ d) else disk p, none⟩
          | _, _, _ => fail
      else
        match showRegion models (some (.list o.files)) (some o.title) none with
        | some s => ⟨true, disk, some s⟩
        | none => fail

end Mrcal.ShowRegion
