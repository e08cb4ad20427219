import Verif.Model.ImageTransform
import Verif.Model.UnprojectPy
import Verif.Model.Rodrigues
import Verif.Model.LensName
/-
Comparing camera models: sample_imager(), sample_imager_unproject() in mrcal/utils.py; implied_Rt10__from_unprojections(), projection_diff(), stereo_pair_diff() in mrcal/model_analysis.py.
Arithmetic is exact: `double` is ℝ; NaN is `none`. The solvers are any functions.
-/
namespace Mrcal.ModelDiff
open Mrcal.Cam Mrcal.Pose Mrcal.ImageTransform

/-! ### the grid -/

/-- `np.linspace(0, a, n)` -/
noncomputable def linspace (a : ℝ) (n : Nat) : List ℝ :=
  (List.range n).map fun (i : Nat) => if n = 1 then 0 else a * (i : ℝ) / ((n : ℝ) - 1)

/-- `gridn_height` utils.py:317-318. `none`: an exception (a division by 0) -/
def gridHeight (gw : Nat) (gh : Option Nat) (W H : Nat) : Option Nat :=
  match gh with
  | some gh => some gh
  | none => if W = 0 then none else some (Name.roundHalfEven ((H : ℚ) / (W : ℚ) * (gw : ℚ))).toNat

/-- `sample_imager()` utils.py:268-323: the rows of the grid. `gridn_width`, `gridn_height` are integers ≥ 0 -/
noncomputable def sampleImager (gw : Nat) (gh : Option Nat) (W H : Nat) : Option (List (List P2)) :=
  (gridHeight gw gh W H).map fun gh =>
    (linspace ((H : ℝ) - 1) gh).map fun y => (linspace ((W : ℝ) - 1) gw).map fun x => ⟨x, y⟩

/-- `mrcal.unproject(q, lensmodel, intrinsics, normalize=True)` of each pixel. `none`: an exception. `prev` is the uninitialized memory of the output -/
noncomputable def unprojectAll (m : Model) (solve : Solver) (prev : NanP3) (qs : List P2) : Option (List NanP3) :=
  qs.mapM fun q => UnprojectPy.unproject m.lens m.intr solve prev true q

/-! ### implied_Rt10__from_unprojections() -/

/-- one of the points used by the fit: the point, the vector it should be matched to, the weight -/
structure Term where
  p : P3
  v : P3
  w : ℝ

/-- `np.isfinite()` of all 3 values -/
def allFinite (v : NanP3) : Bool := v.x.isSome && v.y.isSome && v.z.isSome
/-- the values that aren't finite are set to 0 -/
def fill (v : NanP3) : P3 := ⟨v.x.getD 0, v.y.getD 0, v.z.getD 0⟩

/-- model_analysis.py:186-214. `weights is None` has been replaced with 1. A weight that isn't finite is `none` -/
def cleanTerm (p v : NanP3) (w : Option ℝ) : Term :=
  ⟨fill p, fill v, if allFinite p && allFinite v then w.getD 0 else 0⟩

open Classical in
/-- `i` model_analysis.py:217-218: the focus region -/
noncomputable def inFocus (center : P2) (radius : ℝ) (q : P2) : Bool :=
  decide ((q.x - center.x) * (q.x - center.x) + (q.y - center.y) * (q.y - center.y) < radius * radius)

/-- the points that are used: model_analysis.py:176-224. `p0`, `weights` have one list for each distance -/
noncomputable def terms (q0 : List P2) (p0 : List (List NanP3)) (v1 : List NanP3) (weights : Option (List (List (Option ℝ)))) (center : P2) (radius : ℝ) : List Term :=
  let ws : List (List (Option ℝ)) := weights.getD (p0.map fun ps => ps.map fun _ => some 1)
  (p0.zip ws).flatMap fun (ps, w) =>
    ((q0.zip ((ps.zip v1).zip w)).filter fun x => inFocus center radius x.1).map fun x => cleanTerm x.2.1.1 x.2.1.2 x.2.2

/-- `nps.inner()` -/
def inner (a b : P3) : ℝ := a.x * b.x + a.y * b.y + a.z * b.z
/-- `nps.mag()` -/
noncomputable def mag (a : P3) : ℝ := Real.sqrt (inner a a)
/-- a row vector times a matrix -/
def rowTimes (v : P3) (M : M3) : P3 :=
  ⟨v.x * M.a00 + v.y * M.a10 + v.z * M.a20, v.x * M.a01 + v.y * M.a11 + v.z * M.a21, v.x * M.a02 + v.y * M.a12 + v.z * M.a22⟩

/-- `residual_jacobian_r` model_analysis.py:264-286, one point: `x`, and one row of `J` -/
noncomputable def residualR (r : P3) (T : Term) : ℝ × P3 :=
  let o := rotatePointr r T.p false true true
  let rp0 := o.x
  let drp0_dr := o.Jr.getD identityR
  let th2 := 2 * (1 - inner rp0 T.v)
  let dinner := rowTimes T.v drp0_dr
  (th2 * T.w, ⟨-2 * dinner.x * T.w, -2 * dinner.y * T.w, -2 * dinner.z * T.w⟩)

open Classical in
/-- `residual_jacobian_rt` model_analysis.py:226-262, one point. `none`: NaN, from a division by 0 -/
noncomputable def residualRt (rt : RtV) (T : Term) : Option (ℝ × RtV) :=
  let o := transformPointrt rt T.p false true true
  let rtp0 := o.x
  let d := o.Jrt.getD (identityR, identityR)
  let m := mag rtp0
  let inn := inner rtp0 T.v
  if m = 0 then none else
    let th2 := 2 * (1 - inn / m)
    let f (J : M3) : P3 :=
      let a := rowTimes rtp0 J
      let dinner := rowTimes T.v J
      ⟨2 * (inn * (a.x / m) - m * dinner.x) / (m * m) * T.w, 2 * (inn * (a.y / m) - m * dinner.y) / (m * m) * T.w, 2 * (inn * (a.z / m) - m * dinner.z) / (m * m) * T.w⟩
    some (th2 * T.w, ⟨f d.1, f d.2⟩)

/-- `scipy.optimize.least_squares(..., loss='huber', f_scale = ...)`: given `f_scale` and the function that computes the residuals and their gradients, this is `res.x`. The (random) initial estimate is
a part of this. `none`: an exception. The solver isn't modelled: this is any function -/
structure Lsq where
  rot : ℝ → (P3 → List (ℝ × P3)) → Option P3
  rt : ℝ → (RtV → List (Option (ℝ × RtV))) → Option RtV

/-- `f_scale` model_analysis.py:335, 353 -/
noncomputable def fScale : ℝ := (5 * Real.pi / 180) ^ 2

/-- `implied_Rt10__from_unprojections()` model_analysis.py:27-396. `none`: an exception -/
noncomputable def impliedRt10 (lsq : Lsq) (q0 : List P2) (p0 : List (List NanP3)) (v1 : List NanP3) (weights : Option (List (List (Option ℝ)))) (atinfinity : Bool)
    (center : P2) (radius : ℝ) : Option Rt :=
  if (q0.filter (inFocus center radius)).length < 3 then none
  else
    let ts := terms q0 p0 v1 weights center radius
    if atinfinity then (lsq.rot fScale fun r => ts.map (residualR r)).map fun r => ⟨R_from_r r, ⟨0, 0, 0⟩⟩
    else (lsq.rt fScale fun rt => ts.map (residualRt rt)).map Rt_from_rt

/-! ### projection_diff() -/

/-- `distance` that was given -/
inductive Distance where
  | infinity
  | scalar (d : ℝ)
  | many (ds : List ℝ)

/-- `distance`, `atinfinity` model_analysis.py:1738-1744 -/
def Distance.values : Distance → List ℝ
  | .infinity => [1]
  | .scalar d => [d]
  | .many ds => ds
def Distance.atinfinity : Distance → Bool
  | .infinity => true
  | _ => false

structure Args where
  impliedRt10 : Option Rt
  gw : Nat
  gh : Option Nat
  intrinsicsOnly : Bool
  distance : Distance
  useUncertainties : Bool
  focusCenter : Option P2
  focusRadius : ℝ

/-- what these functions call. `unc`: `projection_uncertainty(p, model, atinfinity=, what='worstdirection-stdev')` of one point; a value that isn't finite is `none`; `uncOk`: were the uncertainties available, or was an
exception raised -/
structure Env where
  solve : Solver
  prev : NanP3
  lsq : Lsq
  uncOk : Bool
  unc : Model → Bool → P3 → Option ℝ

/-- the arrays that are returned. The leading dimension (the distances) is always here; in Python it's removed if `distance` isn't iterable. The grid is a flat list: the same order as in `q0` -/
structure Result where
  difflen : List (List (Option ℝ))
  diff : Option (List (List (Option P2)))
  q0 : List (List P2)
  Rt10 : List Rt

open Classical in
/-- the checks, and centralizing: model_analysis.py:1752-1770, one model. The intrinsics are a copy. `none`: an exception -/
noncomputable def centralize (atinfinity useUnc : Bool) (m : Model) : Option Model :=
  if m.lens.noncentral = true ∧ ¬ (m.intr 9 * m.intr 9 + m.intr 10 * m.intr 10 + m.intr 11 * m.intr 11 < 1e-12) then
    if !atinfinity then none
    else if useUnc then none
    else some { m with intr := fun i => if i = 9 ∨ i = 10 ∨ i = 11 then 0 else m.intr i }
  else some m

/-- a vector times a number -/
def scale (d : ℝ) (v : NanP3) : NanP3 := ⟨v.x.map (· * d), v.y.map (· * d), v.z.map (· * d)⟩

open Classical in
/-- `mrcal.project()`: NaN if given NaN. The zero vector is projected to NaN: this is 0/0 in each of the lens models. Other divisions by 0 are as in `project1` -/
noncomputable def projectN (m : Model) (v : Option P3) : Option P2 :=
  v.bind fun v => if v = ⟨0, 0, 0⟩ then none else some (project1 m v)

/-- `mrcal.transform_point_Rt()`: NaN if given NaN -/
def transformN (T : Rt) (v : NanP3) : Option P3 := (UnprojectPy.finite v).map fun v => transformPointRt T v false

/-- `q1 - q0` model_analysis.py:1852-1862, 1907-1915, at one pixel -/
noncomputable def diffAt (m1 : Model) (T : Rt) (d : ℝ) (q0 : P2) (v0 : NanP3) : Option P2 :=
  (projectN m1 (transformN T (scale d v0))).map fun q1 => ⟨q1.x - q0.x, q1.y - q0.y⟩

def norm2 (q : P2) : ℝ := q.x * q.x + q.y * q.y

/-- `weights` model_analysis.py:1825-1834, 1874-1883, one value: 1/(u0 u1), squared. If an uncertainty is infinite, then the weight is 0; here it's `none`, which has the same effect -/
noncomputable def weightOf (u0 u1 : Option ℝ) : Option ℝ :=
  match u0, u1 with
  | some u0, some u1 => if u0 * u1 = 0 then none else some (1 / (u0 * u1) * (1 / (u0 * u1)))
  | _, _ => none

/-- the uncertainties of one model: model_analysis.py:1785-1791. The uncertainty at a point that isn't finite isn't finite -/
noncomputable def uncOf (env : Env) (a : Args) (m : Model) (v : List NanP3) : List (List (Option ℝ)) :=
  a.distance.values.map fun d => v.map fun v => (UnprojectPy.finite (scale d v)).bind (env.unc m a.distance.atinfinity)

/-- are the uncertainties used: model_analysis.py:1780-1795 -/
noncomputable def usesUnc (env : Env) (a : Args) : Bool :=
  a.useUncertainties && !a.intrinsicsOnly && !(decide (a.focusRadius = 0)) && a.impliedRt10.isNone && env.uncOk

/-- `focus_center` model_analysis.py:1797-1798 -/
noncomputable def centerOf (a : Args) (W H : Nat) : P2 := a.focusCenter.getD ⟨((W : ℝ) - 1) / 2, ((H : ℝ) - 1) / 2⟩

/-- `focus_radius` model_analysis.py:1800-1804 -/
noncomputable def radiusOf (env : Env) (a : Args) (W H : Nat) : ℝ :=
  if a.focusRadius < 0 then (if usesUnc env a then max (W : ℝ) (H : ℝ) * 100 else min (W : ℝ) (H : ℝ) / 6) else a.focusRadius

/-- `Rt10` model_analysis.py:1806-1848; `get_Rt10()` model_analysis.py:1866-1899. `m0`, `m1` are the given models, `c0`, `c1` those whose intrinsics are used. `none`: an exception -/
noncomputable def getRt10 (env : Env) (a : Args) (q0 : List P2) (W H : Nat) (m0 m1 : Model) (v0 v1 : List NanP3) : Option Rt :=
  match a.impliedRt10 with
  | some T => some T
  | none =>
    if a.intrinsicsOnly then some identityRt
    else if radiusOf env a W H = 0 then some (RtToFrom m0 m1)
    else
      let weights : Option (List (List (Option ℝ))) :=
        if usesUnc env a then some ((uncOf env a m0 v0).zipWith (fun u0 u1 => u0.zipWith weightOf u1) (uncOf env a m1 v1)) else none
      ModelDiff.impliedRt10 env.lsq q0 (a.distance.values.map fun d => v0.map (scale d)) v1 weights a.distance.atinfinity (centerOf a W H) (radiusOf env a W H)

/-- `np.mean()`, NaN if one of the values is -/
noncomputable def mean (l : List (Option ℝ)) : Option ℝ := (l.mapM id).map fun l => l.sum / l.length

/-- `q1 - q0`, `grids - q0`: one entry for each camera past the first: the differences, for each distance and pixel -/
noncomputable def diffsOf (a : Args) (qs : List P2) (v0 : List NanP3) (cs : List Model) (Ts : List Rt) : List (List (List (Option P2))) :=
  (cs.zip Ts).map fun (c, T) => a.distance.values.map fun d => (qs.zip v0).map fun (q, v) => diffAt c T d q v

/-- 2 models: model_analysis.py:1859-1860 -/
noncomputable def twoModels (diffs : List (List (List (Option P2)))) (grid : List (List P2)) (Ts : List Rt) : Result :=
  let diff := diffs.headD []
  ⟨diff.map fun (l : List (Option P2)) => l.map fun (d : Option P2) => d.map fun d => Real.sqrt (norm2 d), some diff, grid, Ts⟩

/-- more than 2 models: model_analysis.py:1913-1915 -/
noncomputable def manyModels (a : Args) (diffs : List (List (List (Option P2)))) (grid : List (List P2)) (Ts : List Rt) : Result :=
  ⟨(List.range a.distance.values.length).map fun idist => (List.range grid.flatten.length).map fun i =>
    (mean (diffs.map fun l => (((l[idist]?).bind (·[i]?)).getD none).map norm2)).map Real.sqrt, none, grid, Ts⟩

/-- `projection_diff()` model_analysis.py:1520-1929. `none`: an exception -/
noncomputable def projectionDiff (env : Env) (models : List Model) (a : Args) : Option Result :=
  match models with
  | m0 :: m1 :: rest =>
    if !rest.isEmpty && a.impliedRt10.isSome then none
    else if !((m1 :: rest).all fun m => decide (m.W = m0.W) && decide (m.H = m0.H)) then none
    else
      (centralize a.distance.atinfinity a.useUncertainties m0).bind fun c0 =>
      ((m1 :: rest).mapM (centralize a.distance.atinfinity a.useUncertainties)).bind fun cs =>
      (sampleImager a.gw a.gh m0.W m0.H).bind fun grid =>
      (unprojectAll c0 env.solve env.prev grid.flatten).bind fun v0 =>
      (cs.mapM fun c => unprojectAll c env.solve env.prev grid.flatten).bind fun vs =>
      (((m1 :: rest).zip vs).mapM fun (m, v) => getRt10 env a grid.flatten m0.W m0.H m0 m v0 v).bind fun Ts =>
      some (if rest.isEmpty then twoModels (diffsOf a grid.flatten v0 cs Ts) grid Ts else manyModels a (diffsOf a grid.flatten v0 cs Ts) grid Ts)
  | _ => none

/-! ### stereo_pair_diff() -/

/-- `Rt10_pairs` model_analysis.py:2041-2050: at infinity, the translation is removed -/
def pairRt10 (distance : Option ℝ) (m : Model × Model) : Rt :=
  let T := RtToFrom m.1 m.2
  if distance.isNone then ⟨T.R, ⟨0, 0, 0⟩⟩ else T

/-- `reproject_pairp_from_cami` model_analysis.py:2083-2093, with one pair and one pixel; `fromSecond` is `i`. `none`: an exception; `some none`: NaN -/
noncomputable def reproject (solve : Solver) (prev : NanP3) (distance : Option ℝ) (m : Model × Model) (fromSecond : Bool) (q : P2) : Option (Option P2) :=
  let T := if fromSecond then invertRt (pairRt10 distance m) else pairRt10 distance m
  let src := if fromSecond then m.2 else m.1
  let dst := if fromSecond then m.1 else m.2
  (UnprojectPy.unproject src.lens src.intr solve prev true q).map fun v => projectN dst (transformN T (scale (distance.getD 1) v))

/-- `stereo_pair_diff()` model_analysis.py:1931-2103: `difflen`, `diff`, `q0`. `none`: an exception. The loop at model_analysis.py:2052-2068 calls `np.norm2()`, which numpy doesn't have: each noncentral model
raises an exception -/
noncomputable def stereoPairDiff (solve : Solver) (prev : NanP3) (pairs : List (Model × Model)) (gw : Nat) (gh : Option Nat) (distance : Option ℝ) :
    Option (List (Option ℝ) × List (Option P2) × List (List P2)) :=
  match pairs with
  | [a, b] =>
    if a.1.lens.noncentral || a.2.lens.noncentral || b.1.lens.noncentral || b.2.lens.noncentral then none
    else if a.1.W ≠ b.1.W ∨ a.1.H ≠ b.1.H then none
    else if a.2.W ≠ b.2.W ∨ a.2.H ≠ b.2.H then none
    else
      (sampleImager gw gh a.1.W a.1.H).bind fun grid =>
      (grid.flatten.mapM (reproject solve prev distance a false)).bind fun qa =>
      (grid.flatten.mapM (reproject solve prev distance b false)).bind fun qb =>
      let diff : List (Option P2) := (qa.zip qb).map fun (x, y) => x.bind fun x => y.map fun y => ⟨y.x - x.x, y.y - x.y⟩
      some (diff.map fun d => d.map fun d => Real.sqrt (norm2 d), diff, grid)
  | _ => none

end Mrcal.ModelDiff
