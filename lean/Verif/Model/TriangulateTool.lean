import Verif.Model.Cameras
import Verif.Model.TriangulatePy
import Verif.Model.MatchFeature
/-
The tool mrcal-triangulate: the homography that the feature matcher gets (compute_H10_planes() lines 293-369, and the plane that's made up if there isn't one: lines 547-584), the perturbed poses (lines 686-718), the search for the
largest sensitivity (lines 772-782, 825-839), the correction of the pose of camera 1 (lines 850-917), and the coordinates of the plot of the uncertainty (lines 436-450).

mrcal.match_feature() and mrcal.triangulate() are modelled in MatchFeature and TriangulatePy. Not modelled: the other options, what's printed, the plots, scipy.optimize.minimize() (it's given). Arithmetic is exact.
-/
namespace Mrcal.TriTool

open Mrcal Mrcal.Pose
open Mrcal.MatchFeature (applyHomography)
open Mrcal.TriPy (inverse3)

/-- what's used of a camera model. `project`: mrcal.project() with dq/dp; `unproject`: mrcal.unproject() -/
structure Camera where
  project : P3 → Cam.Proj
  unproject : P2 → P3
  /-- rt_cam_ref() -/
  rt : RtV

/-- Rt_cam_ref() -/
noncomputable def Camera.camRef (c : Camera) : Rt := Rt_from_rt c.rt
/-- Rt_ref_cam() -/
noncomputable def Camera.refCam (c : Camera) : Rt := invertRt c.camRef

/-- nps.inner() -/
def inner (a b : P3) : ℝ := a.x * b.x + a.y * b.y + a.z * b.z
/-- nps.mag() -/
noncomputable def mag (a : P3) : ℝ := Real.sqrt (inner a a)
def scale (k : ℝ) (a : P3) : P3 := ⟨k * a.x, k * a.y, k * a.z⟩
/-- np.cross() -/
def cross (a b : P3) : P3 := ⟨a.y * b.z - a.z * b.y, a.z * b.x - a.x * b.z, a.x * b.y - a.y * b.x⟩

/-! ### the homography -/

/-- `d * R + nps.outer(t, n)` line 335 -/
def planeH (T : Rt) (n : P3) (d : ℝ) : M3 :=
  ⟨d * T.R.a00 + T.t.x * n.x, d * T.R.a01 + T.t.x * n.y, d * T.R.a02 + T.t.x * n.z,
   d * T.R.a10 + T.t.y * n.x, d * T.R.a11 + T.t.y * n.y, d * T.R.a12 + T.t.y * n.z,
   d * T.R.a20 + T.t.z * n.x, d * T.R.a21 + T.t.z * n.y, d * T.R.a22 + T.t.z * n.z⟩

/-- the local "projection matrix": K0 lines 354-358, K1 lines 361-365. `p`: the point, `q`: its pixel -/
noncomputable def localK (c : Camera) (p : P3) (q : P2) : M3 :=
  let o := c.project (scale (1 / p.z) p)
  ⟨o.dqx.x, o.dqx.y, q.x - (o.dqx.x * (p.x / p.z) + o.dqx.y * (p.y / p.z)),
   o.dqy.x, o.dqy.y, q.y - (o.dqy.x * (p.x / p.z) + o.dqy.y * (p.y / p.z)),
   0, 0, 1⟩

/-- Rt10: lines 327-328 -/
noncomputable def relative (c0 c1 : Camera) : Rt := composeRt c1.camRef c0.refCam false false

/-- `compute_H10_planes()` lines 293-369. `none`: np.linalg.inv() raises LinAlgError. (A plane that's parallel to v0 makes infinities; p0 or p1 with z = 0 too: not in this model) -/
noncomputable def computeH10 (c0 c1 : Camera) (q0 : P2) (v0 n : P3) (d : ℝ) : Option M3 :=
  let T := relative c0 c1
  let p0 := scale (d / inner v0 n) v0
  let p1 := transformPointRt T p0 false
  let K0 := localK c0 p0 q0
  let K1 := localK c1 p1 (c1.project (scale (1 / p1.z) p1)).q
  (inverse3 K0).map fun K0i => Pose.mul K1 (Pose.mul (planeH T n d) K0i)

/-- Rt01: lines 551-552 -/
noncomputable def Rt01 (c0 c1 : Camera) : Rt := composeRt c0.camRef c1.refCam false false

/-- `n`: the mean of the forward directions: lines 571-576 -/
noncomputable def meanForward (c0 c1 : Camera) : P3 :=
  let s := addP ⟨0, 0, 1⟩ (mulVec (Rt01 c0 c1).R ⟨0, 0, 1⟩)
  scale (1 / mag s) s

/-- v0: line 547: normalize = True -/
noncomputable def unitRay (c : Camera) (q : P2) : P3 := scale (1 / mag (c.unproject q)) (c.unproject q)

/-- `H10` lines 559-582 -/
noncomputable def theH10 (c0 c1 : Camera) (q0 : P2) (range : ℝ) (plane : Option (P3 × ℝ)) : Option M3 :=
  let v0 := unitRay c0 q0
  match plane with
  | some (n, d) => computeH10 c0 c1 q0 v0 n d
  | none => computeH10 c0 c1 q0 v0 (meanForward c0 c1) (inner (meanForward c0 c1) (scale range v0))

/-- `q1_perfect` line 584; line 585: this is reported to be the feature at the distance of the option range-estimate -/
noncomputable def q1Perfect (c0 c1 : Camera) (q0 : P2) (range : ℝ) (plane : Option (P3 × ℝ)) : Option P2 :=
  (theH10 c0 c1 q0 range plane).bind fun H => applyHomography H q0

/-! ### the perturbed poses -/

/-- mrcal.skew_symmetric() -/
def skew (v : P3) : M3 := ⟨0, -v.z, v.y, v.z, 0, -v.x, -v.y, v.x, 0⟩

/-- `np.eye(3) + np.sin(th) * K + (1. - np.cos(th))*nps.matmult(K,K)`: lines 708, 712 -/
noncomputable def axisAngle (axis : P3) (th : ℝ) : M3 :=
  let K := skew axis
  let K2 := Pose.mul K K
  let s := Real.sin th
  let c := 1 - Real.cos th
  ⟨1 + s * K.a00 + c * K2.a00, s * K.a01 + c * K2.a01, s * K.a02 + c * K2.a02,
   s * K.a10 + c * K2.a10, 1 + s * K.a11 + c * K2.a11, s * K.a12 + c * K2.a12,
   s * K.a20 + c * K2.a20, s * K.a21 + c * K2.a21, 1 + s * K.a22 + c * K2.a22⟩

/-- a perturbation: t01err, (r01err_yaw, its axis), (r01err_pitch, its axis) -/
structure Perturb where
  t : P3
  yaw : ℝ
  yawAxis : P3
  pitch : ℝ
  pitchAxis : P3

open Classical in
/-- `R` lines 705-713 -/
noncomputable def perturbR (e : Perturb) : M3 :=
  let R := if e.yaw = 0 then identityR else axisAngle e.yawAxis e.yaw
  if e.pitch = 0 then R else Pose.mul R (axisAngle e.pitchAxis e.pitch)

/-- `get_rt10_perturbed()` lines 697-718 -/
noncomputable def perturbed (T01 : Rt) (e : Perturb) : RtV :=
  let T := rt_from_Rt (composeRt (invertRt T01) ⟨perturbR e, ⟨0, 0, 0⟩⟩ false false)
  ⟨T.r, subP T.t e.t⟩

/-- n_epipolar_plane: lines 686-691. A point on the baseline makes NaN: not in this model -/
noncomputable def epipolarNormal (p0 : P3) (T01 : Rt) : P3 :=
  let n := cross p0 T01.t
  let n := scale (1 / mag n) n
  if n.y < 0 then scale (-1) n else n

/-- v_pitch: line 694 -/
noncomputable def pitchAxis (T01 : Rt) : P3 := scale (1 / mag T01.t) T01.t

/-! ### the largest sensitivity -/

open Classical in
/-- the loops of lines 772-782 and 825-839. `r`: get_range() for each sample; 0: the rays diverge. `none`: the tool exits. The result: the largest error, and where it is -/
noncomputable def worst {X : Type} (r : X → ℝ) (range0 : ℝ) : List X → ℝ × Option X → Option (ℝ × Option X)
  | [], b => some b
  | x :: l, b =>
    if r x = 0 then none
    else worst r range0 l (if |r x - range0| > b.1 then (|r x - range0|, some x) else b)

/-! ### the correction -/

open Classical in
/-- the inner loop, lines 885-892: i = 0,1,..; `fuel` is what remains of the 180 steps -/
noncomputable def steps (err : ℝ × ℝ → ℝ) (d : ℝ × ℝ) : (fuel i : Nat) → Option (ℝ × ℝ)
  | 0, _ => none
  | fuel + 1, i => if err (i * d.1, i * d.2) < 1e6 then some (i * d.1, i * d.2) else steps err d fuel (i + 1)

open Classical in
/-- `dyawdpitch` lines 873-897. `none`: None -/
noncomputable def start (err : ℝ × ℝ → ℝ) (step : ℝ) : Option (ℝ × ℝ) :=
  if err (0, 0) < 1e6 then some (0, 0)
  else [(step, 0), (-step, 0), (0, step), (0, -step)].findSome? fun d => steps err d 180 0

open Classical in
/-- `get_range_err_yaw_pitch_sq()` lines 850-869. `point`: get_world_intersection_point() for these angles -/
noncomputable def rangeErr (c0 : Camera) (q0 : P2) (range : ℝ) (point : ℝ × ℝ → P3) (x : ℝ × ℝ) : ℝ :=
  let p := point x
  let r := mag p
  if r = 0 then 1e6
  else
    let ex := 100 * ((c0.project p).q.x - q0.x)
    let ey := 100 * ((c0.project p).q.y - q0.y)
    (r - range) * (r - range) + (ex * ex + ey * ey)

/-- how it ends -/
inductive Corrected where
  /-- the option make-corrected-model1 isn't given -/
  | nothing
  /-- rt_cam_ref() of the model that's written -/
  | written (rt : RtV)
  /-- an exception: NameError -/
  | nameError

/-- lines 899-917. `minimize`: scipy.optimize.minimize(). If dyawdpitch is None then dyaw and rt10 were never set, so that `dyaw is None` in line 911 is a NameError; the message after it is never printed -/
noncomputable def correct (c0 : Camera) (T01 : Rt) (p0 : P3) (err : ℝ × ℝ → ℝ) (minimize : (ℝ × ℝ → ℝ) → ℝ × ℝ → ℝ × ℝ) (step : ℝ) (make : Bool) : Corrected :=
  if make then
    match start err step with
    | none => .nameError
    | some x0 =>
      let x := minimize err x0
      .written (composert (perturbed T01 ⟨⟨0, 0, 0⟩, x.1, epipolarNormal p0 T01, x.2, pitchAxis T01⟩) c0.rt false false).rt
  else .nothing

/-! ### the plot of the uncertainty -/

/-- `get__puv__R_uv_cam0()`: R_uvn_cam0: lines 441-448 -/
noncomputable def epipolarR (T01 : Rt) (p : P3) : M3 :=
  let x := scale (1 / mag T01.t) T01.t
  let y := subP p (scale (inner x p) x)
  let y := scale (1 / mag y) y
  let z := cross x y
  ⟨x.x, x.y, x.z, y.x, y.y, y.z, z.x, z.y, z.z⟩

end Mrcal.TriTool
