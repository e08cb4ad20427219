import Verif.Model.ConvertLens
/-
mrcal-reproject-image: all of it after the command line is parsed: lines 340-616. Files are functions from names to contents. What the tool calls is given: mrcal.cameramodel(), glob.glob(), mrcal.load_image(),
mrcal.save_image(), mrcal.pinhole_model_for_reprojection(), mrcal.image_transformation_map(), mrcal.transform_image(), mrcal.annotate_image__valid_intrinsics_region(). Of these, image_transformation_map() and
pinhole_model_for_reprojection() are modelled in ImageTransform.

M: the models, I: the images, C: the contents of files, X: the maps.
-/
namespace Mrcal.Reproject

open Mrcal

abbrev FName := List Char
abbrev FS (C : Type) := FName → Option C

/-- the option --fit: lines 426-441 -/
inductive Fit where
  | points (l : List (Int × Int))
  | corners
  | centersHorizontal
  | centersVertical
deriving DecidableEq

/-- the arguments of image_transformation_map() that come from the command line: lines 575-581 -/
structure MapArgs where
  intrinsicsOnly : Bool
  distance : Option ℝ
  planeN : Option (ℝ × ℝ × ℝ)
  planeD : Option ℝ
  maskRegion : Bool

/-- the command line: lines 206-338 -/
structure Args where
  toPinhole : Bool
  intrinsicsOnly : Bool
  distance : Option ℝ
  fit : Option (List Char)
  scaleFocal : Option ℝ
  scaleImage : Option ℝ
  planeN : Option (ℝ × ℝ × ℝ)
  planeD : Option ℝ
  outdir : Option FName
  validRegion : Bool
  maskRegion : Bool
  force : Bool
  jobs : Int
  modelFrom : FName
  /-- model-to-and-image-globs -/
  rest : List FName

/-- what is called. `none`: an exception -/
structure Env (M I C X : Type) where
  /-- mrcal.cameramodel(filename). Simplified: this doesn't depend on the files that are written; the standard input is a file named '-' that may be read several times -/
  readModel : FName → Option M
  /-- glob.glob(): the files that exist, the pattern -/
  glob : (FName → Bool) → FName → List FName
  load : C → Option I
  save : FName → I → Option C
  /-- width, height -/
  imageSize : I → Nat × Nat
  modelSize : M → Nat × Nat
  annotate : M → I → Option I
  transform : I → X → Option I
  pinhole : M → Option Fit → Option ℝ → Option ℝ → Option M
  map : M → M → MapArgs → Option X
  /-- multiprocessing.Pool.map_async(): which images are processed, and in which order, if there are several jobs. If an exception is raised, some are skipped -/
  schedule : List (FName × FName) → List (FName × FName)

/-! ### --fit -/

/-- `[0-9\.e-]` line 427 -/
def fitChar (c : Char) : Bool := Name.isDigit c || c == '.' || c == 'e' || c == '-'

/-- `str.split(',')` -/
def splitComma : List Char → List (List Char)
  | [] => [[]]
  | c :: l =>
    if c = ',' then [] :: splitComma l
    else match splitComma l with
      | [] => [[c]]
      | t :: ts => (c :: t) :: ts

/-- `int(x)`, of a string of such characters. `none`: ValueError -/
def pyInt : List Char → Option Int
  | '-' :: l => if l ≠ [] ∧ l.all Name.isDigit then some (-(Name.decVal l : Nat) : Int) else none
  | l => if l ≠ [] ∧ l.all Name.isDigit then some (Name.decVal l : Int) else none

/-- `xy.reshape(Nxy//2, 2)` line 434 -/
def pairs : List Int → List (Int × Int)
  | a :: b :: l => (a, b) :: pairs l
  | _ => []

/-- lines 426-441. `none`: an exception, or the tool exits with an error. The `$` in the regular expressions would allow a newline at the end: not modelled -/
def parseFit (s : List Char) : Option Fit :=
  if (splitComma s).all fun t => decide (t ≠ []) && t.all fitChar then
    ((splitComma s).mapM pyInt).bind fun xy => if xy.length % 2 = 1 ∨ xy.length < 4 then none else some (.points (pairs xy))
  else if s = "corners".toList then some .corners
  else if s = "centers-horizontal".toList then some .centersHorizontal
  else if s = "centers-vertical".toList then some .centersVertical
  else none

/-! ### the images -/

/-- `target_image_filename` lines 543-555, 561: the name. `none`: the tool exits with an error -/
def targetName (a : Args) (suffix : List Char) (f : FName) : Option FName :=
  if (Convert.splitExt f).2.length ≠ 4 then none
  else
    let base := match a.outdir with
      | none => (Convert.splitExt f).1
      | some d => d ++ '/' :: Convert.baseName (Convert.splitExt f).1
    some (base ++ '-' :: suffix ++ (Convert.splitExt f).2)

variable {M I C X : Type}

/-- `target_image_filename` lines 543-561: and the file mustn't exist, unless --force -/
def target (a : Args) (fs : FS C) (suffix : List Char) (f : FName) : Option (FName × FName) :=
  (targetName a suffix f).bind fun o => if !a.force && (fs o).isSome then none else some (f, o)

/-- a file is written -/
def write (fs : FS C) (f : FName) (c : C) : FS C := fun g => if g = f then some c else fs g

/-- the image that is written: `_transform_this` lines 535-537 -/
def newImage (env : Env M I C X) (region : Option M) (m : X) (im : I) : Option I :=
  (match region with
    | none => some im
    | some r => env.annotate r im).bind fun im => env.transform im m

/-- `_transform_this` lines 520-538. `none`: an exception. If the image can't be read or has the wrong size, there's a message only -/
def transformThis (env : Env M I C X) (region : Option M) (size : Nat × Nat) (m : X) (fs : FS C) (io : FName × FName) : Option (FS C) :=
  match (fs io.1).bind env.load with
  | none => some fs
  | some im => if env.imageSize im ≠ size then some fs else (newImage env region m im).bind fun im => (env.save io.2 im).map fun c => write fs io.2 c

/-- the serial path: lines 600-603. `false`: an exception -/
def serial (env : Env M I C X) (region : Option M) (size : Nat × Nat) (m : X) (fs : FS C) : List (FName × FName) → FS C × Bool
  | [] => (fs, true)
  | io :: l =>
    match transformThis env region size m fs io with
    | none => (fs, false)
    | some fs => serial env region size m fs l

/-- the parallelized path: lines 584-598. Exceptions are ignored. Simplified: the jobs take turns -/
def parallel (env : Env M I C X) (region : Option M) (size : Nat × Nat) (m : X) (fs : FS C) (l : List (FName × FName)) : FS C :=
  l.foldl (fun fs io => (transformThis env region size m fs io).getD fs) fs

/-- `filenames_in` line 563 -/
def inputs (env : Env M I C X) (fs : FS C) (globs : List FName) : List FName := globs.flatMap fun g => env.glob (fun f => (fs f).isSome) g

/-- `process()` lines 540-603. `false`: an exception, or the tool exits with an error -/
def process (env : Env M I C X) (a : Args) (src dst : M) (globs : List FName) (suffix : List Char) (planeN : Option (ℝ × ℝ × ℝ)) (planeD : Option ℝ) (fs : FS C) : FS C × Bool :=
  if inputs env fs globs = [] then (fs, false)
  else
    match (inputs env fs globs).mapM (target a fs suffix) with
    | none => (fs, false)
    | some ios =>
      match env.map src dst ⟨a.intrinsicsOnly, a.distance, planeN, planeD, a.maskRegion⟩ with
      | none => (fs, false)
      | some m =>
        let region := if a.validRegion then some src else none
        if a.jobs > 1 then (parallel env region (env.modelSize src) m fs (env.schedule ios), true)
        else serial env region (env.modelSize src) m fs ios

/-! ### the tool -/

/-- `re.search(r"\.(cameramodel|cahv|cahvor|cahvore)$", filename, flags = re.I)` lines 350-352 -/
def looksLikeModel (f : FName) : Bool :=
  [".cameramodel".toList, ".cahv".toList, ".cahvor".toList, ".cahvore".toList].any fun e => e.isSuffixOf (f.map Char.toLower)

/-- lines 345-366: the models, the globs. `none`: the tool exits with an error -/
def classify (env : Env M I C X) : List FName → Option (List M × List FName)
  | [] => some ([], [])
  | f :: l =>
    match env.readModel f with
    | some m => (classify env l).map fun r => (m :: r.1, r.2)
    | none => if looksLikeModel f then none else (classify env l).map fun r => (r.1, f :: r.2)

open Classical in
/-- the checks in lines 380-417: is there a `TO` model. `false`: the tool exits with an error -/
noncomputable def argsOk (a : Args) (hasTo : Bool) : Bool :=
  (if a.toPinhole then !(a.fit.isSome && a.scaleFocal.isSome) else !(a.fit.isSome || a.scaleFocal.isSome || a.scaleImage.isSome)) &&
  !(!hasTo && a.intrinsicsOnly) &&
  (match a.scaleImage with
    | none => true
    | some s => decide (1e-6 < s)) &&
  (a.planeN.isSome == a.planeD.isSome) &&
  !(a.planeN.isSome && a.intrinsicsOnly) &&
  !(a.distance.isSome && (a.planeN.isSome || a.intrinsicsOnly))

/-- what the tool did: the files, the models that it wrote to the standard output, and whether the exit status is 0 -/
structure Out (M C : Type) where
  files : FS C
  printed : List M
  ok : Bool

def failed (fs : FS C) : Out M C := ⟨fs, [], false⟩

/-- lines 452-616, once the arguments are known to be good -/
def runModels (env : Env M I C X) (a : Args) (src : M) (dst : Option M) (globs : List FName) (fit : Option Fit) (fs : FS C) : Out M C :=
  if !a.toPinhole then
    match dst with
    | none => failed fs
    | some dst =>
      if globs = [] then failed fs
      else
        let r := process env a src dst globs "reprojected".toList a.planeN a.planeD fs
        ⟨r.1, [], r.2⟩
  else
    match dst with
    | none =>
      if globs = [] then failed fs
      else
        match env.pinhole src fit a.scaleFocal a.scaleImage with
        | none => failed fs
        | some target =>
          if a.planeN.isSome then ⟨fs, [target], false⟩
          else
            let r := process env a src target globs "reprojected".toList a.planeN a.planeD fs
            ⟨r.1, [target], r.2⟩
    | some dst =>
      match globs with
      | [g0, g1] =>
        match env.pinhole dst fit a.scaleFocal a.scaleImage with
        | none => failed fs
        | some target =>
          let r := process env a src target [g0] "pinhole-remapped".toList a.planeN a.planeD fs
          if r.2 then
            let r' := process env a dst target [g1] "pinhole".toList none none r.1
            ⟨r'.1, [target], r'.2⟩
          else ⟨r.1, [target], false⟩
      | _ => failed fs

/-- lines 426-441: --fit may be missing. `none`: an error -/
def fitArg (a : Args) : Option (Option Fit) :=
  match a.fit with
  | none => some none
  | some s => (parseFit s).map some

/-- the tool: lines 340-616. The check in lines 375-378 isn't here: model_to is an object, never '-' -/
noncomputable def run (env : Env M I C X) (a : Args) (fs : FS C) : Out M C :=
  match classify env a.rest with
  | none => failed fs
  | some (models, globs) =>
    if models.length > 1 then failed fs
    else if !argsOk a models.head?.isSome then failed fs
    else
      match fitArg a with
      | none => failed fs
      | some fit =>
        match env.readModel a.modelFrom with
        | none => failed fs
        | some src => runModels env a src models.head? globs fit fs

end Mrcal.Reproject
