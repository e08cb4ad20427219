import Verif.Model.ImageTransform
import Verif.Model.Project
import Verif.Model.Rodrigues
/-
synthesize_board_observations(): mrcal/synthetic_data.py:236-554. Arithmetic is exact: `double` is ℝ.
-/
namespace Mrcal.Synthesize
open Mrcal.Cam Mrcal.Pose Mrcal.ImageTransform

/-- `which`. The other strings are rejected: synthetic_data.py:409-415 -/
inductive Which where
  | allFull
  | someFull
  | allHalf
  | someHalf
  | invalid
  deriving DecidableEq

/-- the arguments. `Nframes` is given separately. Each element of `radius` is that of `rt_ref_boardcenter__noiseradius` -/
structure Args where
  W : Nat
  H : Nat
  spacing : ℝ
  warp : Option P2
  center : RtV
  radius : RtV
  maxOblique : Option ℝ
  pcamera : P3
  which : Which

/-- `mrcal.project()` with the given model. `none`: the result isn't finite -/
structure Env where
  project : Model → P3 → Option P2

/-- what is computed for a frame: the corners seen by each camera (by camera, row, column), and `Rt_ref_boardref` -/
structure Frame where
  q : List (List (List (Option P2)))
  pose : Rt

/-- `board_center` synthetic_data.py:425-428 -/
noncomputable def boardCenter (a : Args) : P3 := ⟨((a.W : ℝ) - 1) * a.spacing / 2, ((a.H : ℝ) - 1) * a.spacing / 2, 0⟩

/-- `board_reference` synthetic_data.py:431-435, column i, row j -/
noncomputable def boardReference (a : Args) (i j : Nat) : P3 :=
  subP (Project.refObject a.W a.H a.spacing a.spacing a.warp 0 none none 0 none none i j) (boardCenter a)

/-- `rt_ref_boardcenter + randomblock * rt_ref_boardcenter__noiseradius` synthetic_data.py:460-462 -/
noncomputable def poseOf (a : Args) (u : RtV) : Rt :=
  Rt_from_rt ⟨⟨a.center.r.x + u.r.x * a.radius.r.x, a.center.r.y + u.r.y * a.radius.r.y, a.center.r.z + u.r.z * a.radius.r.z⟩,
              ⟨a.center.t.x + u.t.x * a.radius.t.x, a.center.t.y + u.t.y * a.radius.t.y, a.center.t.z + u.t.z * a.radius.t.z⟩⟩

/-- the projections: synthetic_data.py:464-478 -/
noncomputable def frameOf (env : Env) (models : List Model) (a : Args) (u : RtV) : Frame :=
  let T := poseOf a u
  { q := models.map fun m => (List.range a.H).map fun (j : Nat) => (List.range a.W).map fun (i : Nat) =>
      env.project m (transformPointRt m.pose (transformPointRt T (boardReference a i j) false) false)
    pose := T }

/-- `get_observation_chunk()` synthetic_data.py:449-480. `rand k` is the k-th row of 6 random numbers produced by np.random.uniform(-1,1); they are used in order -/
noncomputable def chunk (env : Env) (models : List Model) (a : Args) (Nframes : Nat) (rand : Nat → RtV) (n : Nat) : List Frame :=
  (List.range Nframes).map fun (k : Nat) => frameOf env models a (rand (n * Nframes + k))

open Classical in
/-- the oblique views are thrown out: synthetic_data.py:488-497. A position at the camera makes NaN: this isn't > anything -/
noncomputable def facing (a : Args) (f : Frame) : Bool := match a.maxOblique with
  | none => true
  | some deg =>
    let p := subP f.pose.t a.pcamera
    let m := Real.sqrt (p.x * p.x + p.y * p.y + p.z * p.z)
    decide (m ≠ 0 ∧ |p.x / m * f.pose.R.a02 + p.y / m * f.pose.R.a12 + p.z / m * f.pose.R.a22| > Real.cos (deg * Real.pi / 180))

open Classical in
/-- `mask_visible` synthetic_data.py:503-509 -/
noncomputable def visible (m : Model) : Option P2 → Bool
  | none => false
  | some q => decide (q.x ≥ 0 ∧ q.y ≥ 0 ∧ q.x ≤ (m.W : ℝ) - 1 ∧ q.y ≤ (m.H : ℝ) - 1)

/-- `Nvisible` synthetic_data.py:512, one camera -/
noncomputable def numVisible (m : Model) (q : List (List (Option P2))) : Nat := q.flatten.countP (visible m)

/-- `iframe` synthetic_data.py:514-524 -/
noncomputable def inView (models : List Model) (a : Args) (f : Frame) : Bool :=
  let n := (models.zip f.q).map fun mq => numVisible mq.1 mq.2
  match a.which with
  | .allFull => n.all fun n => n == a.H * a.W
  | .someFull => n.any fun n => n == a.H * a.W
  | .allHalf => n.all fun n => decide (n > a.H * a.W / 2)
  | .someHalf => n.any fun n => decide (n > a.H * a.W / 2)
  | .invalid => false

/-- `cull()` synthetic_data.py:482-528 -/
noncomputable def cull (models : List Model) (a : Args) (l : List Frame) : List Frame := (l.filter (facing a)).filter (inView models a)

/-- the loop synthetic_data.py:540-552. `n`: how many chunks were made; `none`: it didn't end after `fuel` of them -/
noncomputable def collect (env : Env) (models : List Model) (a : Args) (Nframes : Nat) (rand : Nat → RtV) : Nat → Nat → List Frame → Option (List Frame)
  | 0, _, _ => none
  | fuel + 1, n, sofar =>
    let sofar := sofar ++ cull models a (chunk env models a Nframes rand n)
    if sofar.length ≥ Nframes then some (sofar.take Nframes) else collect env models a Nframes rand fuel (n + 1) sofar

/-- `synthesize_board_observations()` synthetic_data.py:236-554. `none`: an exception, or it didn't end after `fuel` chunks. The first dimension of the results is the frame; `pose` is `Rt_ref_boardref` of the result. No cameras at
all: nps.cat() fails -/
noncomputable def synthesize (env : Env) (models : List Model) (a : Args) (Nframes : Nat) (rand : Nat → RtV) (fuel : Nat) : Option (List Frame) :=
  if a.which = .invalid then none
  else if models.isEmpty then none
  else (collect env models a Nframes rand fuel 0 []).map fun l =>
    let c := boardCenter a
    l.map fun f => { f with pose := composeRt f.pose ⟨identityR, ⟨-c.x, -c.y, -c.z⟩⟩ false false }

end Mrcal.Synthesize
