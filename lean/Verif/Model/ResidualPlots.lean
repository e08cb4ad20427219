import Verif.Model.Measurements
import Verif.Model.ValidRegion
import Mathlib.Analysis.SpecialFunctions.Complex.Arg
import Mathlib.MeasureTheory.Integral.IntervalIntegral.Basic
/-
The plots of the residuals of a solve: show_residuals_histogram(), show_residuals_vectorfield(), show_residuals_magnitudes(), show_residuals_directions() in
mrcal/visualization.py:3486-4087, with measurements_board(), measurements_point() in mrcal/utils.py:1286-1543 and fitted_gaussian_equation() visualization.py:834-961. These are
what mrcal-show-residuals shows. Modelled: the data that is plotted. Not modelled: titles, ranges, palettes, gnuplotlib. Arithmetic is exact.

Library semantics that are assumed: numpysane.glue() of two arrays returns the other array if one has shape (0,); otherwise the dimensions other than the one being glued must be equal.
-/
namespace Mrcal.Residuals
open Mrcal

abbrev P2 := ℝ × ℝ

/-- one slice of optimization_inputs['observations_board'], and the camera in its row of indices_frame_camintrinsics_camextrinsics. The corners are numbered in row-major order -/
structure BoardObs where
  icam : Int
  q : Nat → P2
  w : Nat → ℝ

/-- one row of optimization_inputs['observations_point'], and the camera in its row of indices_point_camintrinsics_camextrinsics -/
structure PointObs where
  icam : Int
  q : P2
  w : ℝ

/-- the parts of optimization_inputs that are used. `none`: missing, or None. `x`: the measurements that mrcal.optimizer_callback() computes from these inputs -/
structure Solve where
  W : Nat
  H : Nat
  boards : Option (List BoardObs)
  points : Option (List PointObs)
  x : List ℝ

/-- `x[a:a+n].reshape(...)`. `none`: an exception: the slice is cut short by the end of the array -/
def slice (x : List ℝ) (a n : Int) : Option (List ℝ) :=
  let l := (x.drop a.toNat).take n.toNat
  if l.length = n.toNat then some l else none

/-- `idx[indices[:,1] != icam_intrinsics] = False` isn't applied to this observation: utils.py:1395-1397, 1528-1530 -/
def ofCamera (icam : Option Int) (o : Int) : Bool :=
  match icam with
  | none => true
  | some j => decide (o = j)

open Classical in
/-- the rows in `x_board[idx]` and `observations_board[idx, :2]`: utils.py:1392-1410. `xb`: x_board, before the reshape() -/
noncomputable def boardRows (nc : Nat) (icam : Option Int) (xb : List ℝ) (bs : List BoardObs) : List (P2 × P2) :=
  bs.zipIdx.flatMap fun (o, i) => (List.range nc).filterMap fun k =>
    if ofCamera icam o.icam = false ∨ o.w k ≤ 0 then none
    else some ((xb.getD (2 * (i * nc + k)) 0, xb.getD (2 * (i * nc + k) + 1) 0), o.q k)

/-- `measurements_board(return_observations = True)` utils.py:1354-1410: the (measurement, observation) pairs. `none`: an exception -/
noncomputable def measurementsBoard (s : Solve) (icam : Option Int) (x : List ℝ) : Option (List (P2 × P2)) :=
  match s.boards with
  | none => some []
  | some bs =>
    if bs.length * (s.W * s.H) = 0 then some []
    else (slice x (measurementIndexBoards 0 bs.length s.W s.H) (numMeasurementsBoards bs.length s.W s.H)).map fun xb => boardRows (s.W * s.H) icam xb bs

/-- how many board observations the solve has -/
def nboards (s : Solve) : Nat := (s.boards.getD []).length

open Classical in
/-- the rows in `x_point[idx]` and `observations_point[idx, :2]`: utils.py:1525-1543 -/
noncomputable def pointRows (icam : Option Int) (xp : List ℝ) (ps : List PointObs) : List (P2 × P2) :=
  ps.zipIdx.filterMap fun (o, i) =>
    if ofCamera icam o.icam = false ∨ o.w ≤ 0 then none
    else some ((xp.getD (2 * i) 0, xp.getD (2 * i + 1) 0), o.q)

/-- `measurements_point(return_observations = True)` utils.py:1494-1543 -/
noncomputable def measurementsPoint (s : Solve) (icam : Option Int) (x : List ℝ) : Option (List (P2 × P2)) :=
  match s.points with
  | none => some []
  | some ps =>
    if ps.length = 0 then some []
    else (slice x (measurementIndexPoints 0 (nboards s) ps.length s.W s.H) (numMeasurementsPoints ps.length)).map fun xp => pointRows icam xp ps

/-- `x`, `residuals`: the arguments of each of the functions: visualization.py:3560-3563. If neither is given, the measurements are recomputed: utils.py:1374-1380, 1507-1513. `none`: an exception -/
def pickX (s : Solve) : Option (List ℝ) → Option (List ℝ) → Option (List ℝ)
  | some _, some _ => none
  | some x, none => some x
  | none, some r => some r
  | none, none => some s.x

/-- (N,2) as rows -/
def row (p : P2) : List ℝ := [p.1, p.2]

/-- `nps.glue(a, b, axis=-1)` of (N,2) and (M,2). `none` as an argument or inside the result: np.array(()), with shape (0,). `none` outside: an exception -/
def glue : Option (List P2) → Option (List P2) → Option (Option (List (List ℝ)))
  | none, none => some none
  | some l, none => some (some (l.map row))
  | none, some m => some (some (m.map row))
  | some l, some m => if l.length = m.length then some (some (List.zipWith (fun a b => row a ++ row b) l m)) else none

/-- the arrays `err`, `obs` of `_get_show_residuals_data_onecam` visualization.py:3631-3710: a list of rows (err, obs). `none`: an exception; also if both are np.array(()), since the callers look at err[:,0] -/
noncomputable def dataOneCam (s : Solve) (icam : Option Int) (x : List ℝ) : Option (List (List ℝ × List ℝ)) :=
  (measurementsBoard s icam x).bind fun b =>
    (measurementsPoint s icam x).bind fun p =>
      let bs := s.boards.map fun _ => b
      let ps := s.points.map fun _ => p
      (glue (bs.map fun l => l.map Prod.fst) (ps.map fun l => l.map Prod.fst)).bind fun err =>
        (glue (bs.map fun l => l.map Prod.snd) (ps.map fun l => l.map Prod.snd)).bind fun obs =>
          match err, obs with
          | some err, some obs => some (List.zip err obs)
          | _, _ => none

/-- `a[:,i]` -/
def at' (r : List ℝ) (i : Nat) : ℝ := r.getD i 0

/-- `np.sqrt(nps.norm2(err))` -/
noncomputable def mag (r : List ℝ) : ℝ := Real.sqrt (r.map fun e => e * e).sum

/-- what's plotted of each row, and the region that is drawn over it -/
abbrev Plot (α : Type) := List α × Option (List (ℚ × ℚ))

/-- a vector: where it starts, the vector, the color -/
structure Vector where
  x : ℝ
  y : ℝ
  dx : ℝ
  dy : ℝ
  color : ℝ

/-- a colored point -/
structure Dot where
  x : ℝ
  y : ℝ
  color : ℝ

/-- common to the plots of one camera: visualization.py:3794-3804, 3918-3928, 4039-4049. `icam`: model.icam_intrinsics(): an integer in any model that has optimization_inputs -/
noncomputable def onecam {α : Type} (f : List ℝ × List ℝ → α) (s : Solve) (icam : Int) (x residuals : Option (List ℝ)) (overlay : Bool) (region : Option (List (ℚ × ℚ))) : Option (Plot α) :=
  (pickX s x residuals).bind fun x =>
    (dataOneCam s (some icam) x).bind fun d =>
      (Region.plotRegion overlay region).map fun g => (d.map f, g)

/-- `show_residuals_vectorfield` visualization.py:3713-3840: lines 3828-3834 -/
noncomputable def vectorfield (scale : ℝ) := onecam fun (err, obs) => (⟨at' obs 0, at' obs 1, scale * at' err 0, scale * at' err 1, mag err⟩ : Vector)

/-- `show_residuals_magnitudes` visualization.py:3843-3962: lines 3952-3956 -/
noncomputable def magnitudes := onecam fun (err, obs) => (⟨at' obs 0, at' obs 1, mag err⟩ : Dot)

/-- `show_residuals_directions` visualization.py:3965-4087: lines 4077-4081. np.arctan2(y,x) is the argument of x + iy -/
noncomputable def directions := onecam fun (err, obs) => (⟨at' obs 0, at' obs 1, 180 / Real.pi * Complex.arg ⟨at' err 0, at' err 1⟩⟩ : Dot)

/-- scipy.special.erf() -/
noncomputable def erf (z : ℝ) : ℝ := 2 / Real.sqrt Real.pi * ∫ t in (0 : ℝ)..z, Real.exp (-(t * t))

/-- the curve in the string returned by `fitted_gaussian_equation` visualization.py:953-961 -/
noncomputable def gaussian (binwidth mean sigma : ℝ) (N : Nat) (x : ℝ) : ℝ :=
  let var := sigma * sigma
  let k := N * Real.sqrt (2 * Real.pi) * sigma * erf (binwidth / (2 * Real.sqrt 2 * sigma))
  k * Real.exp (-(x - mean) * (x - mean) / (2 * var)) / Real.sqrt (2 * Real.pi * var)

/-- the arguments of `fitted_gaussian_equation`, lines 943-951: the mean, sigma, N that are used. `none`: an exception -/
noncomputable def gaussianArgs (x : Option (List ℝ)) (mean sigma : Option ℝ) (N : Option Nat) : Option (ℝ × ℝ × Nat) :=
  match x, mean, sigma, N with
  | some x, none, none, none => some (Region.mean x, Region.std x, x.length)
  | none, some m, some s, some n => some (m, s, n)
  | _, _, _, _ => none

/-- .ravel() -/
def ravel (l : List P2) : List ℝ := l.flatMap row

/-- `show_residuals_histogram` visualization.py:3486-3628: the values that the histogram is made of, and the curve. `none`: an exception -/
noncomputable def histogram (s : Solve) (icam : Option Int) (x residuals : Option (List ℝ)) (binwidth : ℝ) : Option (List ℝ × (ℝ → ℝ)) :=
  (pickX s x residuals).bind fun x =>
    (measurementsBoard s icam x).bind fun b =>
      (measurementsPoint s icam x).bind fun p =>
        let d := ravel (b.map Prod.fst) ++ ravel (p.map Prod.fst)
        if d.length = 0 then none
        else
          (gaussianArgs none (some (Region.mean d)) (some (Region.std d)) (some d.length)).map fun (m, sg, n) => (d, gaussian binwidth m sg n)

end Mrcal.Residuals
