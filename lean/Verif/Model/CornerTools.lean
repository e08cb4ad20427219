import Mathlib.Order.Defs.LinearOrder
import Mathlib.Analysis.Real.Sqrt
import Verif.Model.Corners
/-
`mrcal-rotate-corners` and `mrcal-cull-corners`: the tools that work on a corners.vnl file
-/
namespace Mrcal.CornerTools

/-! ### mrcal-rotate-corners -/

/-- how an image is to be turned -/
inductive Turn where
  | t0
  | t90
  | t180
  | t270
deriving DecidableEq

/-- which of the options applies: mrcal-rotate-corners:111-122, 152-158. The arguments: does the file name match any of the expressions of --90, --180, --270 -/
def select {F : Type} (m90 m180 m270 : F → Bool) (f : F) : Turn :=
  if m90 f then .t90 else if m270 f then .t270 else if m180 f then .t180 else .t0

/-- the awk variables i, ix, iy, filename_prev mrcal-rotate-corners:128-150. Initially these aren't set: they're 0 and "" (modelled as none: file names aren't empty) -/
structure St (F : Type) where
  i : Int
  ix : Int
  iy : Int
  prev : Option F

/-- the number of lines is as expected mrcal-rotate-corners:131-132, 162-163 -/
def good {F : Type} (gridn : Int) (s : St F) : Bool := s.i + 1 = 0 || s.i + 1 = 1 || s.i + 1 = gridn * gridn

/-- mrcal-rotate-corners:129-150. `none`: the error -/
def advance {F : Type} [DecidableEq F] (gridn : Int) (s : St F) (f : F) : Option (St F) :=
  if some f ≠ s.prev then
    if good gridn s = false then none else some ⟨0, 0, 0, some f⟩
  else
    if s.ix + 1 = gridn then some ⟨s.i + 1, 0, s.iy + 1, s.prev⟩ else some ⟨s.i + 1, s.ix + 1, s.iy, s.prev⟩

/-- mrcal-rotate-corners:152-158 -/
def icorner {F : Type} (gridn : Int) (s : St F) : Turn → Int
  | .t90 => (gridn - 1 - s.ix) * gridn + s.iy
  | .t270 => s.ix * gridn + (gridn - 1 - s.iy)
  | .t180 => gridn * gridn - 1 - s.i
  | .t0 => s.i

/-- the first vnl-filter: the lines with icorner, and the final variables -/
def filter1 {F : Type} [DecidableEq F] (gridn : Int) (sel : F → Turn) : St F → List (F × String) → Option (List (Int × F × String) × St F)
  | s, [] => some ([], s)
  | s, (f, line) :: rest =>
    (advance gridn s f).bind fun s' => (filter1 gridn sel s' rest).map fun r => ((icorner gridn s' (sel f), f, line) :: r.1, r.2)

/-- the keys of vnl-sort mrcal-rotate-corners:175 -/
def sortLe {F : Type} [LinearOrder F] (a b : Int × F × String) : Bool := decide (a.2.1 < b.2.1 ∨ a.2.1 = b.2.1 ∧ a.1 ≤ b.1)

/-- mrcal-rotate-corners:124-178. The lines that aren't comments: the file name, and the rest of the line. `none`: the tool reports an error and its exit status isn't 0.
File names are ordered somehow: by the locale. (If two lines have the same keys, then sort(1) compares the whole lines. This doesn't matter if each file has its lines in one place) -/
def rotate {F : Type} [LinearOrder F] (gridn : Int) (sel : F → Turn) (lines : List (F × String)) : Option (List (F × String)) :=
  (filter1 gridn sel ⟨0, 0, 0, none⟩ lines).bind fun r =>
    if good gridn r.2 = false then none else some ((r.1.mergeSort sortLe).map fun x => x.2)

/-! ### mrcal-cull-corners -/

/-- the arguments that are used to cull single points -/
structure Args where
  cull_left_of : Option ℝ
  cull_rad_off_center : Option ℝ
  cull_rad_off_center_board : Option ℝ
  cull_random_observations_ratio : Option ℝ
  object_width_n : Option Int
  object_height_n : Option Int
  imagersize : Option (Int × Int)
  at' : Option (ℝ × ℝ)

/-- what is to be culled -/
inductive Plan where
  | left (x : ℝ)
  | radius (c : ℝ × ℝ) (r : ℝ)
  | board (w h : Int) (r : ℝ)
  | random (w h : Int) (ratio : ℝ)

open Classical in
/-- mrcal-cull-corners:134-163, 188-201. `none`: an error. Simplified: a radius or a ratio of exactly 0 is handled as any other number (python takes 0 as false, so then the sizes aren't checked) -/
noncomputable def plan (a : Args) : Option Plan :=
  let height := match a.object_height_n with
    | some h => some h
    | none => a.object_width_n
  match a.cull_left_of, a.cull_rad_off_center, a.cull_rad_off_center_board, a.cull_random_observations_ratio with
  | some x, none, none, none => some (.left x)
  | none, some d, none, none =>
    if 0 ≤ d then
      match a.at', a.imagersize with
      | some p, _ => some (.radius p d)
      | none, some (w, h) => some (.radius (((w : ℝ) - 1) / 2, ((h : ℝ) - 1) / 2) d)
      | none, none => none
    else
      match a.at', a.imagersize with
      | some _, _ => none
      | none, some (w, h) => some (.radius (((w : ℝ) - 1) / 2, ((h : ℝ) - 1) / 2) (Real.sqrt ((w : ℝ) * w + (h : ℝ) * h) / 2 + d))
      | none, none => none
  | none, none, some r, none =>
    match a.object_width_n, height with
    | some w, some h => some (.board w h r)
    | _, _ => none
  | none, none, none, some r =>
    match a.object_width_n, height with
    | some w, some h => some (.random w h r)
    | _, _ => none
  | _, _, _, _ => none

/-- a line of the file, after the legend. The fields: x and y (none: x is '-'), and the level (none: '-') -/
inductive Line where
  | comment (s : String)
  | data (file : String) (xy : Option (ℝ × ℝ)) (level : Option String)

/-- xy_pt, filename_current mrcal-cull-corners:216-217. Initially the file name is empty: none -/
structure Count where
  x : Int
  y : Int
  file : Option String

/-- mrcal-cull-corners:242-244 -/
def newFile (s : Count) (f : String) : Count := if s.file ≠ some f then ⟨0, 0, some f⟩ else s

/-- mrcal-cull-corners:248-251 -/
def nextPt (w : Int) (s : Count) : Count := if s.x + 1 = w then ⟨0, s.y + 1, s.file⟩ else ⟨s.x + 1, s.y, s.file⟩

open Classical in
/-- one line with coordinates, of a selected file: mrcal-cull-corners:234-258. Is it kept, and the next state -/
noncomputable def keeps (p : Plan) (s : Count) (file : String) (x y : ℝ) : Bool × Count :=
  match p with
  | .left x0 => (decide (x > x0), s)
  | .radius c r => (decide ((x - c.1) * (x - c.1) + (y - c.2) * (y - c.2) < r * r), s)
  | .board w h r =>
    let s := newFile s file
    let dx := (s.x : ℝ) - ((w : ℝ) - 1) / 2
    let dy := (s.y : ℝ) - ((h : ℝ) - 1) / 2
    (decide (dx * dx + dy * dy < r * r), nextPt w s)
  | .random _ _ _ => (true, s)

/-- the loop mrcal-cull-corners:219-258. `selected`: does the file name match --filename -/
noncomputable def cull (p : Plan) (selected : String → Bool) : Count → List Line → List Line
  | _, [] => []
  | s, .comment c :: rest => .comment c :: cull p selected s rest
  | s, .data file none level :: rest => .data file none level :: cull p selected s rest
  | s, .data file (some (x, y)) level :: rest =>
    if selected file = false then .data file (some (x, y)) level :: cull p selected s rest
    else
      let k := keeps p s file x y
      .data file (some (x, y)) (if k.1 then level else none) :: cull p selected k.2 rest

/-- the lines that are written mrcal-cull-corners:288-292: x, y, and the level. `none`: '-'. An error if the level isn't a finite number -/
def levelOut : Corners.Num → Option (Option Int)
  | .fin q => if q < 0 then some none else some (some ⌊q⌋)
  | .negInf => some none
  | _ => none

/-- `--cull-random-observations-ratio` mrcal-cull-corners:266-292. `keep`: indices_keep. compute_chessboard_corners() is called with weight_column_kind = 'weight' -/
def cullRandom (e : Corners.Env) (keep : List Nat) (lines : List (List Char)) : Option (List (Corners.Name × Corners.Num × Corners.Num × Option Int)) :=
  (Corners.compute { e with kind := .weight } lines).bind fun r =>
    (keep.mapM fun i =>
      (r.observations[i]?).bind fun obs => (r.files_sorted[i]?).bind fun path =>
        obs.flatten.mapM fun p => (levelOut p.w).map fun l => (path, p.x, p.y, l)).map List.flatten

end Mrcal.CornerTools
