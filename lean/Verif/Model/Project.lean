import Verif.Model.Rodrigues
import Verif.Model.Splines
import Verif.Model.Cahvor
/-
Projecting a calibration board, or a single point, through a frame transform and a camera transform, with all the gradients:
`project()` mrcal.c:2573-2863 and the functions it calls. Arithmetic is exact: `double` is ℝ.

Simplified: all the gradients are requested (no pointer is NULL). The lens is a function from a point in camera coordinates to the pixel and its
two gradient rows: that function is modelled for each lens model in Cameras.lean, OpenCV.lean, Cahvor.lean, Splines.lean.
-/
namespace Mrcal.Project
open Pose

/-- one corner of the board, in the board coordinates, and `dpt_refz_dwarp`: mrcal.c:2797-2819. `warp` is None if `calobject_warp` is NULL. If the
width is 1 then C divides by 0: so does this, but the results differ (NaN in C; 0 here) -/
noncomputable def boardPoint (W H : Nat) (spacing : ℝ) (warp : Option P2) (x y : Nat) : P3 × P2 :=
  match warp with
  | none => (⟨(x : ℝ) * spacing, (y : ℝ) * spacing, 0⟩, ⟨0, 0⟩)
  | some w =>
    let xr : ℝ := (x : ℝ) / ((W : ℝ) - 1)
    let yr : ℝ := (y : ℝ) / ((H : ℝ) - 1)
    let dx := 4 * xr * (1 - xr)
    let dy := 4 * yr * (1 - yr)
    (⟨(x : ℝ) * spacing, (y : ℝ) * spacing, 0 + w.x * dx + w.y * dy⟩, ⟨dx, dy⟩)

/-- `numpy.linspace(a,b,n)[i]` -/
noncomputable def linspace (a b : ℝ) (n i : Nat) : ℝ := if n ≤ 1 then a else a + (i : ℝ) * ((b - a) / ((n : ℝ) - 1))

/-- `mrcal.ref_calibration_object(W,H, (sx,sy), calobject_warp=warp, x_corner0=.., ...)[j,i]` synthetic_data.py:25-233. `none` for x_corner1, Nx, y_corner1, Ny is
the python None: the defaults. Simplified: no broadcasting -/
noncomputable def refObject (W H : Nat) (sx sy : ℝ) (warp : Option P2) (x0 : ℝ) (x1 : Option ℝ) (Nx : Option Nat) (y0 : ℝ) (y1 : Option ℝ) (Ny : Option Nat)
    (i j : Nat) : P3 :=
  let xx := linspace x0 (x1.getD ((W : ℝ) - 1)) (Nx.getD W) i
  let yy := linspace y0 (y1.getD ((H : ℝ) - 1)) (Ny.getD H) j
  let z : ℝ := match warp with
    | none => 0
    | some w =>
      let xr := xx / ((W : ℝ) - 1)
      let yr := yy / ((H : ℝ) - 1)
      let dx := 4 * xr * (1 - xr)
      let dy := 4 * yr * (1 - yr)
      0 + w.x * dx + w.y * dy
  ⟨xx * sx, yy * sy, z⟩

/-- the order of the corners: mrcal.c:2794-2795 -/
def boardOrder (W H : Nat) : List (Nat × Nat) :=
  (List.range H).flatMap fun y => (List.range W).map fun x => (x, y)

/-- the point in camera coordinates, with its gradients. `dtf` none means "identity" -/
structure CamPoint where
  p : P3
  drc : Option M3
  dtc : Option M3
  drf : M3
  dtf : Option M3

/-- `mul_vec3_gen33_vout(pt_ref, &d_Rj_rj[9*i], ...)` for i = 0,1,2: mrcal.c:2315, 2340, 2362. Row i, column k is the sum over j of pt[j] dR[i,j]/dr[k]. The J of
`R_from_r_J` is given as dR/dr[0], dR/dr[1], dR/dr[2] -/
def ptJ (pt : P3) (D : M3 × M3 × M3) : M3 :=
  let row (a b c : P3) : P3 :=
    ⟨pt.x * a.x + pt.y * a.y + pt.z * a.z, pt.x * b.x + pt.y * b.y + pt.z * b.z, pt.x * c.x + pt.y * c.y + pt.z * c.z⟩
  let r0 := row ⟨D.1.a00, D.1.a01, D.1.a02⟩ ⟨D.2.1.a00, D.2.1.a01, D.2.1.a02⟩ ⟨D.2.2.a00, D.2.2.a01, D.2.2.a02⟩
  let r1 := row ⟨D.1.a10, D.1.a11, D.1.a12⟩ ⟨D.2.1.a10, D.2.1.a11, D.2.1.a12⟩ ⟨D.2.2.a10, D.2.2.a11, D.2.2.a12⟩
  let r2 := row ⟨D.1.a20, D.1.a21, D.1.a22⟩ ⟨D.2.1.a20, D.2.1.a21, D.2.1.a22⟩ ⟨D.2.2.a20, D.2.2.a21, D.2.2.a22⟩
  ⟨r0.x, r0.y, r0.z, r1.x, r1.y, r1.z, r2.x, r2.y, r2.z⟩

/-- `add_vec(3, dp_dparam[i].xyz, &dtj_dparam[3*i])` for i = 0,1,2 -/
def addM (A B : M3) : M3 :=
  ⟨A.a00 + B.a00, A.a01 + B.a01, A.a02 + B.a02, A.a10 + B.a10, A.a11 + B.a11, A.a12 + B.a12, A.a20 + B.a20, A.a21 + B.a21, A.a22 + B.a22⟩

/-- the joint transform, and (if there is a camera transform) its gradients: mrcal.c:2659-2702 -/
noncomputable def joint (cam : Option RtV) (frame : RtV) : RtV × Option ComposeRt :=
  match cam with
  | some c => let o := composert c frame false false; (o.rt, some o)
  | none => (frame, none)

/-- `_propagate_extrinsics` mrcal.c:2303-2417. `gg` is none if the camera is at the reference -/
noncomputable def propagateExtrinsics (pt : P3) (gg : Option ComposeRt) (rtj : RtV) : CamPoint :=
  let Rj := R_from_r rtj.r
  let D := R_from_r_J rtj.r
  let p := addP (mulVec Rj pt) rtj.t
  match gg with
  | some g =>
    { p := p
      drc := some (addM (mul (ptJ pt D) g.dr_r0) g.dt_r0)
      dtc := some identityR
      drf := mul (ptJ pt D) g.dr_r1
      dtf := some g.dt_t1 }
  | none => { p := p, drc := none, dtc := none, drf := ptJ pt D, dtf := none }

/-- two rows: the gradients of q.x and q.y -/
structure Rows where
  x : P3
  y : P3

/-- what `project()` produces for one point -/
structure Out where
  q : P2
  drcamera : Rows
  dtcamera : Rows
  drframe : Rows
  dtframe : Rows
  /-- `dq_dcalobject_warp[0]`, `dq_dcalobject_warp[1]` -/
  dwarpx : P2
  dwarpy : P2

/-- `mul_genN3_gen33_vout(2, dq_dp, dp, ...)` -/
def chain (o : Cam.Proj) (dp : M3) : Rows := ⟨vecMul o.dqx dp, vecMul o.dqy dp⟩

/-- `propagate_extrinsics__splined` mrcal.c:2026-2051 -/
def propagateSplined (fx fy : ℝ) (du : P3 × P3) (ddux dduy : P2) (dp : M3) : Rows :=
  let du0 := vecMul du.1 dp
  let du1 := vecMul du.2 dp
  let fX (a b : ℝ) : ℝ := fx * (a * (1 + ddux.x) + dduy.x * b)
  let fY (a b : ℝ) : ℝ := fy * (b * (1 + dduy.y) + ddux.y * a)
  ⟨⟨fX du0.x du1.x, fX du0.y du1.y, fX du0.z du1.z⟩, ⟨fY du0.x du1.x, fY du0.y du1.y, fY du0.z du1.z⟩⟩

/-- `_project_point` mrcal.c:2420-2559, `_project_point_parametric` mrcal.c:1400-1416, `project_cahvor` mrcal.c:1204-1220, `_project_point_splined`
mrcal.c:2257-2292. `dz` is `dpt_refz_dwarp`. These three write the extrinsics gradients in the same way. The splined one,
`propagateSplined`, multiplies in a different order: the same in exact arithmetic (theorem propagate_splined) -/
noncomputable def projectPoint (lens : P3 → Cam.Proj) (atIdentity : Bool) (c : CamPoint) (Rj : M3) (dz : P2) : Out :=
  let o := lens c.p
  let zero : Rows := ⟨⟨0, 0, 0⟩, ⟨0, 0, 0⟩⟩
  let dtf : Rows := if atIdentity then ⟨o.dqx, o.dqy⟩ else chain o (c.dtf.getD identityR)
  let dtc : Rows := if atIdentity then zero else chain o (c.dtc.getD identityR)
  let dt : Rows := if atIdentity then dtf else dtc
  let d0 := dt.x.x * Rj.a02 + dt.x.y * Rj.a12 + dt.x.z * Rj.a22
  let d1 := dt.y.x * Rj.a02 + dt.y.y * Rj.a12 + dt.y.z * Rj.a22
  { q := o.q
    drcamera := if atIdentity then zero else chain o (c.drc.getD identityR)
    dtcamera := dtc
    drframe := chain o c.drf
    dtframe := dtf
    dwarpx := ⟨d0 * dz.x, d0 * dz.y⟩
    dwarpy := ⟨d1 * dz.x, d1 * dz.y⟩ }

/-- one corner of the board: the body of the loop mrcal.c:2797-2860 -/
noncomputable def projectCorner (lens : P3 → Cam.Proj) (cam : Option RtV) (frame : RtV) (W H : Nat) (spacing : ℝ) (warp : Option P2) (x y : Nat) : Out :=
  let (rtj, gg) := joint cam frame
  let (pt, dz) := boardPoint W H spacing warp x y
  projectPoint lens cam.isNone (propagateExtrinsics pt gg rtj) (R_from_r rtj.r) dz

/-- `project()` with calibration_object_width_n > 0: the outputs, in order. mrcal.c:2790-2862 -/
noncomputable def projectBoard (lens : P3 → Cam.Proj) (cam : Option RtV) (frame : RtV) (W H : Nat) (spacing : ℝ) (warp : Option P2) : List Out :=
  (boardOrder W H).map fun xy => projectCorner lens cam frame W H spacing warp xy.1 xy.2

/-- `project()` with calibration_object_width_n = 0: mrcal.c:2767-2789. Only the `t` of the frame is used. `dq_dcalobject_warp` isn't written: here it's 0 -/
noncomputable def projectDiscrete (lens : P3 → Cam.Proj) (cam : Option RtV) (t : P3) : Out :=
  let (rtj, gg) := joint cam ⟨⟨0, 0, 0⟩, t⟩
  projectPoint lens cam.isNone (propagateExtrinsics ⟨0, 0, 0⟩ gg rtj) (R_from_r rtj.r) ⟨0, 0⟩

end Mrcal.Project
