import Verif.Model.ConvertLens
/-
The format converters mrcal-from-cahvor:69-102, mrcal-from-ros:121-154 and mrcal-to-cahvor:69-99, from the parsed command line; and the part of cameramodel.write() that selects the format: /repo/mrcal/cameramodel.py:1353-1361,
1457-1477, with cahvor.write(): /repo/mrcal/cahvor.py:410-417. mrcal-from-cahvor and mrcal-from-ros are the same program.

What is called is given: reading a model from the contents of a file (cameramodel.__init__(): the formats are tried one by one, whatever the name is), and the text of each format. Files are functions from names to contents; a
directory or a file that can't be written isn't modelled, and neither is KeyboardInterrupt. There are no newlines in the names.

M: the models, C: the contents of files.
-/
namespace Mrcal.Format

open Mrcal.Convert (splitExt baseName)

abbrev FName := List Char
abbrev FS (C : Type) := FName → Option C

/-- the formats of files -/
inductive Fmt where
  | cameramodel
  | cahvor
  | opencv
deriving DecidableEq

/-- what is called -/
structure Env (M C : Type) where
  /-- mrcal.cameramodel(): `none`: an exception -/
  read : C → Option M
  /-- the text of a model in some format, with the comments at the top. `none`: an exception, before anything is written (cahvor.py:340-360: the comments come first; see `commentText`) -/
  text : Fmt → List (List Char) → M → Option C
  /-- comments alone: what's in a file if there's an exception then. No comments: the file is empty -/
  commentText : List (List Char) → C
  /-- the standard input. `none`: it's a terminal -/
  stdin : Option C

/-- the command line: mrcal-from-cahvor:45-60, mrcal-to-cahvor:45-60, mrcal-from-ros:97-112 -/
structure Args where
  force : Bool
  outdir : Option FName
  models : List FName

/-- `re.match(r".*\.cahv(or(e)?)?$", f)`, `re.match(r".*\.ya?ml$", f)`: cameramodel.py:1465-1470 -/
def formatOf (f : FName) : Fmt :=
  if [".cahv".toList, ".cahvor".toList, ".cahvore".toList].any fun e => e.isSuffixOf f then .cahvor
  else if [".yml".toList, ".yaml".toList].any fun e => e.isSuffixOf f then .opencv
  else .cameramodel

/-- `write_function`: cameramodel.py:1457-1459; for a filename otherwise the name decides: lines 1465-1470; for an opened file it's the cameramodel format: lines 1472-1475. `none`: too many options: lines 1355-1360 -/
def writeFormat (cahvor opencv : Bool) (f : Option FName) : Option Fmt :=
  if cahvor && opencv then none
  else if cahvor then some .cahvor
  else if opencv then some .opencv
  else match f with
    | some f => some (formatOf f)
    | none => some .cameramodel

/-- the comments that are written. cameramodel._write(): cameramodel.py:506-508. For the cahvor format: write_cahvor() (cameramodel.py:1370-1372) calls cahvor.write(), always with an opened file; so it's line cahvor.py:417 that calls
_write(), without the note. write_opencv() doesn't look at the note: cameramodel.py:1374 -/
def comments (fmt : Fmt) (note : Option (List (List Char))) : List (List Char) :=
  match fmt with
  | .cameramodel => note.getD []
  | .cahvor => []
  | .opencv => []

/-- a file is written -/
def put (fs : FS C) (f : FName) (c : C) : FS C := fun g => if g = f then some c else fs g

/-- `model.write(filename, note = note)`: cameramodel.py:1461-1470. The file is opened first. `false`: an exception -/
def writeFile (env : Env M C) (fs : FS C) (f : FName) (note : Option (List (List Char))) (m : M) : FS C × Bool :=
  match env.text (formatOf f) (comments (formatOf f) note) m with
  | some c => (put fs f c, true)
  | none => (put fs f (env.commentText (comments (formatOf f) note)), false)

/-- `extension.lower() == ext`: mrcal-from-cahvor:87-88, mrcal-to-cahvor:84-85, mrcal-from-ros:139-140 -/
def already (ext : List Char) (f : FName) : Bool := decide ((splitExt f).2.map Char.toLower = ext)

/-- `filename_out`: mrcal-from-cahvor:87, 93-95, mrcal-to-cahvor:84, 90-92, mrcal-from-ros:139, 145-147 -/
def outName (ext : List Char) (a : Args) (f : FName) : FName :=
  (match a.outdir with
    | none => (splitExt f).1
    | some d => d ++ '/' :: baseName (splitExt f).1) ++ ext

/-- how the program ends; what's on the standard output: models, and the names of the files that were written -/
structure Out (C : Type) where
  fs : FS C
  stdout : List (C ⊕ FName)
  ok : Bool

/-- something is printed before the rest -/
def Out.print (x : C ⊕ FName) (o : Out C) : Out C := { o with stdout := x :: o.stdout }

/-- the loop: mrcal-from-cahvor:76-102, mrcal-to-cahvor:76-99, mrcal-from-ros:128-154. `cahvor`: the standard output gets the cahvor format: mrcal-to-cahvor:82 -/
def loop (env : Env M C) (ext : List Char) (cahvor : Bool) (a : Args) (fs : FS C) : List FName → Out C
  | [] => ⟨fs, [], true⟩
  | f :: l =>
    if f = "-".toList then
      match (env.stdin.bind env.read).bind (env.text (if cahvor then .cahvor else .cameramodel) []) with
      | none => ⟨fs, [], false⟩
      | some c => (loop env ext cahvor a fs l).print (.inl c)
    else if already ext f then ⟨fs, [], true⟩
    else if !a.force && (fs (outName ext a f)).isSome then loop env ext cahvor a fs l
    else
      match (fs f).bind env.read with
      | none => ⟨fs, [], false⟩
      | some m =>
        match writeFile env fs (outName ext a f) none m with
        | (fs, false) => ⟨fs, [], false⟩
        | (fs, true) => (loop env ext cahvor a fs l).print (.inr (outName ext a f))

/-- the arguments: no models mean '-': the option `default` with nargs='*'; mrcal-from-cahvor:56-58, mrcal-to-cahvor:56-58, mrcal-from-ros:108-110 -/
def models (a : Args) : List FName := if a.models = [] then ["-".toList] else a.models

/-- the program: `Nstdin` lines mrcal-from-cahvor:69-72, mrcal-to-cahvor:69-72, mrcal-from-ros:121-124, and the loop -/
def tool (env : Env M C) (ext : List Char) (cahvor : Bool) (a : Args) (fs : FS C) : Out C :=
  if 1 < (models a).countP (fun m => decide (m = "-".toList)) then ⟨fs, [], false⟩
  else loop env ext cahvor a fs (models a)

/-- mrcal-from-cahvor:69-102 and mrcal-from-ros:121-154 -/
def toCameramodel (env : Env M C) (a : Args) (fs : FS C) : Out C := tool env ".cameramodel".toList false a fs

/-- mrcal-to-cahvor:69-99 -/
def toCahvor (env : Env M C) (a : Args) (fs : FS C) : Out C := tool env ".cahvor".toList true a fs

end Mrcal.Format
