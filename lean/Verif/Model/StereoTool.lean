import Verif.Model.ConvertLens
import Mathlib.Algebra.Order.Archimedean.Real.Basic
import Mathlib.Algebra.Order.Floor.Ring
/-
mrcal-stereo without the visualizations, after the command line is parsed: /repo/mrcal-stereo lines 564-1052, 1425-1458. Line numbers are of this file.

What is called is given: reading models and images, glob.glob(), mrcal.rectified_system(), mrcal.rectification_maps(), mrcal.transform_image(), the stereo matcher, mrcal.stereo_range(), mrcal.stereo_unproject(), mrcal.save_image(). Those of
mrcal are modelled elsewhere. The processing of the pixels that the tool does itself is modelled: the conversion to grayscale, the 'stretch' equalization, the number of disparities, the point cloud. Reading doesn't depend on the files
that the tool writes. Not modelled: the options viz, the rounding of floating-point numbers.

I: the images, C: the contents of files.
-/
namespace Mrcal.StereoTool

open Mrcal Mrcal.Pose
open Mrcal.Convert (splitExt baseName)

/-! ### the pixels -/

/-- line 962: `np.mean(image, axis=-1, dtype=image.dtype)`, for a pixel with the channels `c`, of an image with unsigned integers of `bits` bits. numpy computes the sum with this type, so modulo 2^bits; the quotient is converted to this type,
so it's truncated -/
def grayPixel (bits : Nat) (c : List Nat) : Nat := (c.sum % 2 ^ bits) / c.length

/-- line 969: `((image - np.min(image))/(np.max(image)-np.min(image))*255.).astype(np.uint8)`, for the pixel `x`. `none`: 0/0 -/
def stretchPixel (lo hi x : Nat) : Option Nat := if hi = lo then none else some (255 * (x - lo) / (hi - lo))

/-- lines 875-876: num_disparities. Python's round() rounds a half to even -/
def numDisparities (dmin dmax : Int) : Int :=
  let n := dmax - dmin
  let q := n / 16
  let r := n % 16
  16 * (if r < 8 then q else if 8 < r then q + 1 else if q % 2 = 0 then q else q + 1)

/-! ### the point cloud -/

/-- what the point cloud is made of -/
structure Cloud (Color : Type) where
  /-- the range image: the pixels of rectified camera 0, with the range; 0: invalid -/
  ranges : List ((Nat × Nat) × ℝ)
  /-- mrcal.stereo_unproject() for one pixel -/
  unproject : Nat × Nat → ℝ → P3
  Rt_ref_rect0 : Rt
  Rt_cam0_ref : Rt
  /-- mrcal.project() of camera 0. `none`: NaN or infinity -/
  project : P3 → Option P2
  /-- the size of image 0 -/
  W : Nat
  H : Nat
  /-- image 0: row, column -/
  image : Nat → Nat → Color

open Classical in
/-- lines 754-806: the points and their colors -/
noncomputable def cloud {Color : Type} (D : Cloud Color) : List (P3 × Color) :=
  (D.ranges.map fun x => transformPointRt D.Rt_ref_rect0 (D.unproject x.1 x.2) false).filterMap fun p =>
    (D.project (transformPointRt D.Rt_cam0_ref p false)).bind fun q =>
      if -0.5 < q.x ∧ -0.5 < q.y ∧ q.x < (D.W : ℝ) - 0.5 ∧ q.y < (D.H : ℝ) - 0.5 then some (p, D.image ⌊q.y + 0.5⌋.toNat ⌊q.x + 0.5⌋.toNat) else none

/-! ### the names of the files -/

abbrev FName := List Char
abbrev FS (C : Type) := FName → Option C

/-- `[a-zA-Z0-9_+-]` line 565 -/
def tagChar (c : Char) : Bool := c.isAlphanum || c == '_' || c == '+' || c == '-'

/-- line 565: `re.sub('[^a-zA-Z0-9_+-]+', '_', tag)`. `run`: the character before was replaced -/
def cleanTag (run : Bool) : List Char → List Char
  | [] => []
  | c :: l => if tagChar c then c :: cleanTag false l else if run then cleanTag true l else '_' :: cleanTag true l

inductive Matcher where
  | sgbm
  | elas
  | sad5
deriving DecidableEq

/-- disparity_scale lines 871, 914, 916 -/
def Matcher.scale : Matcher → List Char
  | .sgbm => "16".toList
  | .elas => "1".toList
  | .sad5 => "64".toList

/-- the command line -/
structure Args where
  outdir : FName
  tag : Option (List Char)
  force : Bool
  /-- set by the option for the equalization, too: lines 511-512 -/
  forceGrayscale : Bool
  alreadyRectified : Bool
  pointCloud : Bool
  matcher : Matcher
  jobs : Int
  images : List FName

/-- `write_output_one()` lines 673-679: the name. The tag was cleaned: line 565 -/
def outName (a : Args) (f : FName) : FName :=
  let tag := match a.tag with
    | none => []
    | some t => '-' :: cleanTag false t
  a.outdir ++ '/' :: ((splitExt f).1 ++ (tag ++ (splitExt f).2))

/-- what is written -/
inductive Kind where
  | model0
  | model1
  | rectified0
  | rectified1
  | disparity
  | disparityRaw
  | range
  | points
deriving DecidableEq

/-- line 704: image_filenames_base -/
def imageBase (f : FName) : FName := (splitExt (baseName f)).1

def rectifiedModels : List (Kind × FName) := [(.model0, "rectified0.cameramodel".toList), (.model1, "rectified1.cameramodel".toList)]

/-- `write_output_all()` lines 707-816, in this order -/
def outputs (a : Args) (f : FName × FName) : List (Kind × FName) :=
  (if a.alreadyRectified then [] else rectifiedModels ++ [(.rectified0, imageBase f.1 ++ "-rectified.png".toList), (.rectified1, imageBase f.2 ++ "-rectified.png".toList)]) ++
  [(.disparity, imageBase f.1 ++ "-disparity.png".toList), (.disparityRaw, imageBase f.1 ++ ("-disparity-uint16-scale".toList ++ (a.matcher.scale ++ ".png".toList))), (.range, imageBase f.1 ++ "-range.png".toList)] ++
  (if a.pointCloud then [(.points, imageBase f.1 ++ "-points.ply".toList)] else [])

/-! ### the program -/

/-- what is called. `none`: an exception -/
structure Env (I C : Type) where
  /-- models, rectified_system(), _validate_models_rectified(), rectification_maps(): lines 576-602, 834-835. `false`: an error -/
  modelsOk : Bool
  /-- the sizes of the models: width, height -/
  modelSize : (Nat × Nat) × (Nat × Nat)
  /-- mrcal.load_image() -/
  load : FName → Option I
  imageSize : I → Nat × Nat
  color : I → Bool
  /-- sorted(glob.glob(os.path.expanduser())) line 840 -/
  glob : FName → List FName
  /-- what is written for the models -/
  modelText : Kind → Option C
  /-- what is computed for a pair of images: lines 959-1029; then what is written. `none`: an exception when this is written -/
  compute : FName × FName → I × I → Option (Kind → Option C)
  /-- multiprocessing.Pool.map_async(): which images are processed, and in which order, if there are several jobs. If an exception is raised, some are skipped -/
  schedule : List (FName × FName) → List (FName × FName)

variable {I C : Type}

/-- a file is written -/
def put (fs : FS C) (f : FName) (c : C) : FS C := fun g => if g = f then some c else fs g

/-- `write_output_one()` lines 671-686: a file that exists isn't overwritten: there's a warning. `false`: an exception. Simplified: no file is left then -/
def writeOne (a : Args) (text : Kind → Option C) (fs : FS C) (o : Kind × FName) : FS C × Bool :=
  if (fs (outName a o.2)).isSome && !a.force then (fs, true)
  else match text o.1 with
    | some c => (put fs (outName a o.2) c, true)
    | none => (fs, false)

def writeList (a : Args) (text : Kind → Option C) (fs : FS C) : List (Kind × FName) → FS C × Bool
  | [] => (fs, true)
  | o :: l =>
    match writeOne a text fs o with
    | (fs, true) => writeList a text fs l
    | (fs, false) => (fs, false)

/-- how `process()` ends: it returns True or False, or raises an exception -/
inductive Status where
  | written
  | refused
  | raised
deriving DecidableEq

/-- `process()` lines 933-1052 -/
def process (env : Env I C) (a : Args) (fs : FS C) (f : FName × FName) : FS C × Status :=
  match env.load f.1, env.load f.2 with
  | some i0, some i1 =>
    if env.imageSize i0 ≠ env.modelSize.1 then (fs, .refused)
    else if env.imageSize i1 ≠ env.modelSize.2 then (fs, .refused)
    else if a.matcher = .elas ∧ a.forceGrayscale = false ∧ (env.color i0 || env.color i1) = true then (fs, .refused)
    else
      match env.compute f (i0, i1) with
      | none => (fs, .raised)
      | some text =>
        match writeList a text fs (outputs a f) with
        | (fs, true) => (fs, .written)
        | (fs, false) => (fs, .raised)
  | _, _ => (fs, .raised)

/-- the serial path: lines 1427-1430. The result of process() isn't used. `false`: an exception -/
def serial (env : Env I C) (a : Args) (fs : FS C) : List (FName × FName) → FS C × Bool
  | [] => (fs, true)
  | f :: l =>
    match process env a fs f with
    | (fs, .raised) => (fs, false)
    | (fs, _) => serial env a fs l

/-- the parallel path: lines 1432-1458. Simplified: one image at a time, in any order. Exceptions are ignored: lines 1454-1455 -/
def parallel (env : Env I C) (a : Args) (fs : FS C) (l : List (FName × FName)) : FS C :=
  (env.schedule l).foldl (fun fs f => (process env a fs f).1) fs

/-- the tool. `false`: an error, or an exception -/
def tool (env : Env I C) (a : Args) (fs : FS C) : FS C × Bool :=
  if ¬ (a.images.length = 0 ∨ a.images.length = 2) then (fs, false)
  else if !env.modelsOk then (fs, false)
  else match a.images with
    | [] => writeList a env.modelText fs rectifiedModels
    | g0 :: g =>
      let f0 := env.glob g0
      let f1 := env.glob (g.headD [])
      if f0.length ≠ f1.length then (fs, false)
      else if f0.length = 0 then (fs, false)
      else if f0.length = 1 ∨ a.jobs ≤ 1 then serial env a fs (f0.zip f1)
      else (parallel env a fs (f0.zip f1), true)

end Mrcal.StereoTool
