import Mathlib.Data.Rat.Floor
/-
Reading the chessboard corners of a calibration: mrcal/calibration.py and mrcal/utils.py. An exception is `none`
-/
namespace Mrcal.Corners

/-- A Python string -/
abbrev Name := List Char

/-- A Python dict, in insertion order -/
abbrev Dict (α : Type) := List (Name × α)

/-- `d[k]` -/
def Dict.get {α : Type} (d : Dict α) (k : Name) : Option α := (List.find? (fun p => p.1 = k) d).map Prod.snd

/-- `d[k] = v`. The place of a key that already is there doesn't change -/
def Dict.set {α : Type} (d : Dict α) (k : Name) (v : α) : Dict α :=
  if k ∈ d.map Prod.fst then d.map fun p => if p.1 = k then (k, v) else p else d ++ [(k, v)]

/-- `longest_leading_substring()` utils.py:853-857 -/
def leading : Name → Name → Name
  | a :: as, b :: bs => if a = b then a :: leading as bs else []
  | _, _ => []

/-- `longest_trailing_substring()` utils.py:858-864 -/
def trailing (a b : Name) : Name := (leading a.reverse b.reverse).reverse

/-- `get_longest_leading_trailing_substrings()` utils.py:837-875. With no strings this returns (None,None); the caller has checked for that -/
def leadingTrailing : List Name → Name × Name
  | [] => ([], [])
  | s :: ss => (ss.foldl leading s, ss.foldl trailing s)

/-- `f[Nleading:Itrailing]` utils.py:893-896 -/
def middle (nl nt : Nat) (f : Name) : Name := (f.take (f.length - nt)).drop nl

/-- the regular expression `^[0-9]+$` utils.py:896. The strings have no newlines -/
def numeric (s : Name) : Bool := !s.isEmpty && s.all Char.isDigit

/-- `int(s)` of a string of digits -/
def intOf (s : Name) : Nat := s.foldl (fun n c => 10 * n + (c.toNat - '0'.toNat)) 0

/-- `pull_framenumbers()` utils.py:877-918 -/
def pullFramenumbers (files : List Name) : Option (List Nat) :=
  if files.length = 1 then some [0]
  else
    let lt := leadingTrailing files
    let mid := middle lt.1.length lt.2.length
    if files.all fun f => numeric (mid f) then
      let pre_numeric := (lt.1.reverse.takeWhile Char.isDigit).reverse
      let post_numeric := lt.2.takeWhile Char.isDigit
      some (files.map fun f => intOf (pre_numeric ++ mid f ++ post_numeric))
    else none

/-- `framenumbers` of one camera utils.py:926-935. Any exception is caught if there's one camera -/
def framenumbers (Ncameras : Nat) (files : List Name) : Option (List Nat) :=
  match pullFramenumbers files with
  | some l => some l
  | none => if Ncameras = 1 then some (List.range files.length) else none

/-- the loop over the cameras utils.py:925-938 -/
def mappingLoop (Ncameras : Nat) : Nat → List (List Name) → Dict (Nat × Nat) → Option (Dict (Nat × Nat))
  | _, [], d => some d
  | icamera, files :: rest, d =>
    (framenumbers Ncameras files).bind fun fr =>
      mappingLoop Ncameras (icamera + 1) rest ((files.zip fr).foldl (fun d p => Dict.set d p.1 (p.2, icamera)) d)

/-- `mapping_file_framenocameraindex()` utils.py:788-938 -/
def mappingFile (files_per_camera : List (List Name)) : Option (Dict (Nat × Nat)) :=
  if files_per_camera.any List.isEmpty then none
  else mappingLoop files_per_camera.length 0 files_per_camera []

/-- A Python float. The finite ones are exact here -/
inductive Num where
  | fin (q : ℚ)
  | posInf
  | negInf
  | nan
deriving DecidableEq

/-- `x < 0` -/
def Num.neg : Num → Bool
  | .fin q => q < 0
  | .negInf => true
  | _ => false

/-- `x <= 0` -/
def Num.nonpos : Num → Bool
  | .fin q => q ≤ 0
  | .negInf => true
  | _ => false

/-- one point `(x,y,weight)` in the `observations` -/
structure Pt where
  x : Num
  y : Num
  w : Num
deriving DecidableEq

/-- the initial value calibration.py:305 -/
def invalid : Pt := ⟨.fin (-1), .fin (-1), .fin (-1)⟩

/-- `weight_column_kind`: 'level', 'weight' or None. calibration.py:186-189 -/
inductive Kind where
  | level
  | weight
  | ignored
deriving DecidableEq

/-- `1. / (1 << int(w))` calibration.py:416. NaN and infinity cannot be converted to an integer, and 2^1024 cannot be converted to a float -/
def levelWeight : Num → Option Num
  | .fin q => if 1024 ≤ ⌊q⌋ then none else some (.fin (1 / 2 ^ ⌊q⌋.toNat))
  | _ => none

/-- `parse_point()` calibration.py:369-418: the point, and whether it is valid. `num` is the Python float(). There are 2 or 3 fields -/
def parsePoint (kind : Kind) (num : Name → Option Num) (fields : List Name) : Option (Pt × Bool) :=
  match fields with
  | fx :: fy :: rest =>
    if fx = ['-'] ∨ fy = ['-'] then some (invalid, false)
    else
      (num fx).bind fun x => (num fy).bind fun y =>
        let out := { invalid with x := x, y := y }
        if x.neg || y.neg then some (out, false)
        else
          match rest, kind with
          | [], _ => some ({ out with w := .fin 1 }, true)
          | _, .ignored => some ({ out with w := .fin 1 }, true)
          | fw :: _, kind =>
            if fw = ['-'] then some (out, false)
            else
              (num fw).bind fun w =>
                if kind = .weight then
                  if w.nonpos then some (out, false) else some ({ out with w := w }, true)
                else
                  if w.neg then some (out, false) else (levelWeight w).map fun l => ({ out with w := l }, true)
  | _ => none

/-- The arguments, and the functions of the os and fnmatch modules -/
structure Env where
  W : Nat
  H : Nat
  /-- the number of globs -/
  Ncameras : Nat
  kind : Kind
  /-- `float()` -/
  num : Name → Option Num
  /-- `f in exclude_images` -/
  excluded : Name → Bool
  /-- `Npoint_observations_per_board_min` -/
  min : Option Int
  image_path_prefix : Option Name
  image_directory : Option Name
  /-- `corners_cache_vnl` is a path on disk, this is its `os.path.dirname()` calibration.py:251. If a file object was given: None -/
  corners_dir : Option Name
  /-- `os.path.exists()` -/
  exist : Name → Bool
  /-- `os.path.normpath()` -/
  normpath : Name → Name
  /-- does the file match the glob of this camera: `fnmatch.fnmatch(os.path.abspath(f), globs_per_camera[icam])` calibration.py:317 -/
  glob : Nat → Name → Bool

/-- calibration.py:191-192 -/
def Env.minPoints (e : Env) : Int := e.min.getD (2 * (Nat.min e.W e.H : Int))

/-- `os.path.basename()`: everything after the last slash -/
def basename (f : Name) : Name := (f.reverse.takeWhile (· ≠ '/')).reverse

/-- `filename_canonical` calibration.py:329-338 -/
def canonical (e : Env) (f : Name) : Name :=
  match e.image_path_prefix, e.image_directory, e.corners_dir with
  | some p, _, _ => p ++ '/' :: f
  | none, some d, _ => d ++ '/' :: basename f
  | none, none, some d => if f.head? ≠ some '/' ∧ e.exist f = false then d ++ '/' :: f else e.normpath f
  | none, none, none => e.normpath f

/-- `context` calibration.py:300-307 -/
structure Context where
  f : Name
  igrid : Nat
  Nvalidpoints : Nat
  grid : List Pt

/-- `context0` calibration.py:300-305 -/
def context0 (e : Env) : Context := ⟨[], 0, 0, List.replicate (e.H * e.W) invalid⟩

/-- `reshape(H,W,3)` calibration.py:341 -/
def reshape (H W : Nat) (g : List Pt) : List (List Pt) := (List.range H).map fun i => (List.range W).map fun j => g.getD (i * W + j) invalid

/-- `files_per_camera` and `mapping` calibration.py:237-239, 299 -/
structure Acc where
  files : List (List Name)
  mapping : Dict (List (List Pt))

/-- `accum_files()` calibration.py:315-320: the camera of this file -/
def camera (e : Env) (f : Name) : Option Nat := (List.range e.Ncameras).find? fun icam => e.glob icam f

/-- `finish_chessboard_observation()` calibration.py:312-343. The context is reset by the caller -/
def finish (e : Env) (c : Context) (a : Acc) : Option Acc :=
  if c.igrid > 1 then
    if e.W * e.H ≠ c.igrid then none
    else if e.excluded c.f = false ∧ (c.Nvalidpoints : Int) > e.minPoints then
      match camera e (canonical e c.f) with
      | none => some a
      | some icam => some ⟨a.files.modify icam (· ++ [canonical e c.f]), Dict.set a.mapping (canonical e c.f) (reshape e.H e.W c.grid)⟩
    else some a
  else some a

/-- whitespace -/
def white (c : Char) : Bool := c = ' ' || c = '\t' || c = '\n' || c = '\r' || c = '\x0b' || c = '\x0c'

/-- `line.split()`. The expression `\s*(\S+)\s+(.*?)$` calibration.py:351 together with the split() calibration.py:364 are this: the first word, and the rest. (If there's just one word without a newline after it, the expression
doesn't match, and this is an exception. If there is a newline, there are no more fields, and this is an exception, too) -/
def words (line : List Char) : List Name := (line.splitOnP white).filter fun w => !w.isEmpty

/-- `\s*#` calibration.py:349 -/
def comment (line : List Char) : Bool :=
  match words line with
  | ('#' :: _) :: _ => true
  | _ => false

/-- one line that isn't a comment calibration.py:351-425 -/
def row (e : Env) (s : Context × Acc) (ws : List Name) : Option (Context × Acc) :=
  match ws with
  | [] => none
  | f :: fields =>
    (if s.1.f ≠ f then (finish e s.1 s.2).map fun a => ({ context0 e with f := f }, a) else some s).bind fun s =>
      if fields.length = 2 ∨ fields.length = 3 then
        if s.1.igrid < s.1.grid.length then
          (parsePoint e.kind e.num fields).map fun p =>
            ({ s.1 with igrid := s.1.igrid + 1, Nvalidpoints := if p.2 then s.1.Nvalidpoints + 1 else s.1.Nvalidpoints, grid := s.1.grid.set s.1.igrid p.1 }, s.2)
        else none
      else none

/-- calibration.py:345-425: all the lines -/
def rows (e : Env) : List (List Char) → Context × Acc → Option (Context × Acc)
  | [], s => some s
  | line :: rest, s => if comment line then rows e rest s else (row e s (words line)).bind (rows e rest)

/-- `get_corner_observations()` calibration.py:203-466, with an existing cache file, the lines of which are given. Not modelled: running mrgingham -/
def cornerObservations (e : Env) (lines : List (List Char)) : Option Acc :=
  (rows e lines (context0 e, ⟨List.replicate e.Ncameras [], []⟩)).bind fun s =>
    (finish e s.1 s.2).bind fun a =>
      let min_num_images := if a.files.length > 1 then 2 else 1
      if a.files.any fun l => l.length < min_num_images then none else some a

/-- `index_frame` calibration.py:488-500: the loop over the sorted files, each one with its frame number and its camera -/
def indices : Option Nat → Int → List (Name × Nat × Nat) → List (Int × Nat)
  | _, _, [] => []
  | iframe_last, index_frame, (_, iframe, icam) :: rest =>
    let index_frame := if iframe_last = none ∨ iframe_last ≠ some iframe then index_frame + 1 else index_frame
    (index_frame, icam) :: indices (some iframe) index_frame rest

/-- what compute_chessboard_corners() returns -/
structure Result where
  observations : List (List (List Pt))
  indices_frame_camera : List (Int × Nat)
  files_sorted : List Name

/-- `compute_chessboard_corners()` calibration.py:24-505, with an existing cache file. The keys of the two sorts are looked up beforehand -/
def compute (e : Env) (lines : List (List Char)) : Option Result :=
  (cornerObservations e lines).bind fun a =>
    (mappingFile a.files).bind fun m =>
      (a.mapping.mapM fun p => (Dict.get m p.1).map fun k => (p.1, k)).bind fun keyed =>
        let sorted := (keyed.mergeSort fun a b => a.2.2 ≤ b.2.2).mergeSort fun a b => a.2.1 ≤ b.2.1
        (sorted.mapM fun p => Dict.get a.mapping p.1).map fun obs =>
          ⟨obs, indices none (-1) sorted, sorted.map Prod.fst⟩

end Mrcal.Corners
