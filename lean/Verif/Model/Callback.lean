import Verif.Model.Measurements
import Verif.Model.Scales
/-
`optimizer_callback` (mrcal.c:4445-5970) and `_mrcal_num_j_nonzero` (mrcal.c:743-882).

The projection and triangulation-error functions are parameters here (`Proj`, `TriRes`): this file is
about what is written where. `Jt` is assumed non-NULL (with `Jt==NULL` the same cursor movements happen
without the writes).
-/
namespace Mrcal.Callback
open Mrcal

/-- What `project()` (mrcal.c:2573) reports for one observed feature. First index: x or y. -/
structure Proj where
  /-- q_hypothesis -/
  q : Nat → ℝ
  /-- dq_dfxy -/
  dfxy : Nat → ℝ
  /-- dq_dintrinsics_pool_int: first control point variable; splined models only -/
  ivar0 : Int
  /-- gradient_sparse_meta.pool -/
  ABCDx : Nat → ℝ
  ABCDy : Nat → ℝ
  /-- dq_dintrinsics_nocore -/
  nocore : Nat → Int → ℝ
  drcam : Nat → Nat → ℝ
  dtcam : Nat → Nat → ℝ
  drframe : Nat → Nat → ℝ
  dtframe : Nat → Nat → ℝ
  dpoint : Nat → Nat → ℝ
  dwarp : Nat → Int → ℝ

/-- `_mrcal_triangulated_error` and its gradients, propagated to the two camera poses
(mrcal.c:5340-5506): d/d(r,t) of camera 0 and camera 1, in real units. -/
structure TriRes where
  err : ℝ
  dr0 : Nat → ℝ
  dt0 : Nat → ℝ
  dr1 : Nat → ℝ
  dt1 : Nat → ℝ

/-- mrcal_observation_board_t with the observed pixels and weights of its corners
(`observations_board_pool`; corner index → (x,y,weight)). -/
structure BoardObs where
  icamI : Int
  icamE : Int
  iframe : Int
  obs : Nat → Nat → ℝ
  weight : Nat → ℝ

/-- mrcal_observation_point_t with its `observations_point_pool` element. -/
structure PointObs where
  icamI : Int
  icamE : Int
  ipoint : Int
  obs : Nat → ℝ
  weight : ℝ

/-- One measurement: the residual and the Jacobian entries (column, value), in the order written. -/
structure Row where
  x : ℝ
  entries : List (Int × ℝ)

/-- The inputs. `W`,`H`: calibration_object_width_n/height_n clamped at 0 (mrcal.c:6142-6143). -/
structure Ctx where
  d : Dims
  W : Nat
  H : Nat
  boards : List BoardObs
  points : List PointObs
  tri : List TriObs
  /-- project() results: board observation, corner -/
  projBoard : Nat → Nat → Proj
  /-- project() results: point observation -/
  projPoint : Nat → Proj
  /-- triangulated error for a pair of observations -/
  projTri : Nat → Nat → TriRes
  /-- intrinsics_all: camera, parameter -/
  intrinsics : Int → Int → ℝ
  /-- camera_rt[0].t -/
  t0 : Nat → ℝ
  imagersizes : Int → ℝ

/-- `STORE_JACOBIAN3` mrcal.c:4484-4496 -/
def store3 (col0 : Int) (g0 g1 g2 : ℝ) : List (Int × ℝ) := [(col0 + 0, g0), (col0 + 1, g1), (col0 + 2, g2)]

/-- `for(int i=0; i<n; i++)` -/
def loop (n : Int) : List Int := (List.range n.toNat).map Int.ofNat

/-- `for(iy<len) for(ix<len) STORE_JACOBIAN(...)` mrcal.c:4755-4759 -/
noncomputable def storeSpline (len : Int) (col0 stridey : Int) (xy : Nat) (g : Int → Int → ℝ) :
    List (Int × ℝ) :=
  (loop len).flatMap fun iy => (loop len).map fun ix => (col0 + iy * stridey + ix * 2 + xy, g ix iy)

/-- `Ncore` mrcal.c:4524 -/
def Ncore (lens : Lens) : Int := if lens.hasCore then 4 else 0
/-- `Ncore_state` mrcal.c:4525-4526 -/
def NcoreState (d : Dims) : Int := if d.lens.hasCore && d.sel.core then 4 else 0

/-- The intrinsics part of an inlier row; mrcal.c:4722-4770 (boards), the same in 5095-5144 (points).
`ivar_stridey` is the `uint16_t` 2*Nx (mrcal.c:2053); no wraparound here. -/
noncomputable def intrinsicsEntries (d : Dims) (iv : Int) (p : Proj) (fxy : Nat → ℝ) (weight : ℝ)
    (xy : Nat) : List (Int × ℝ) :=
  (if d.sel.core then
    [(iv + xy, p.dfxy xy * weight * scaleFocal), (iv + xy + 2, weight * scaleCenter)] else []) ++
  (if d.sel.distortions then
    match d.lens with
    | .splined order Nx _ _ =>
      let ivar0 := p.ivar0 - (if d.sel.core then 0 else 4)
      storeSpline (order + 1) (iv + ivar0) (2 * Nx) xy
        fun ix iy => p.ABCDx ix.toNat * p.ABCDy iy.toNat * fxy xy * weight * scaleDistortion
    | lens =>
      (loop (lens.numParams - Ncore lens)).map fun i =>
        (iv + NcoreState d + i, p.nocore xy i * weight * scaleDistortion)
   else [])

/-- The intrinsics part of an outlier board row; mrcal.c:4844-4868 -/
noncomputable def intrinsicsOutlierBoard (d : Dims) (iv : Int) (p : Proj) (xy : Nat) : List (Int × ℝ) :=
  (if d.sel.core then [(iv + xy, (0 : ℝ)), (iv + xy + 2, (0 : ℝ))] else []) ++
  (if d.sel.distortions then
    match d.lens with
    | .splined order Nx _ _ =>
      let ivar0 := p.ivar0 - (if d.sel.core then 0 else 4)
      storeSpline (order + 1) (iv + ivar0) (2 * Nx) xy fun _ _ => 0
    | lens => (loop (lens.numParams - Ncore lens)).map fun i => (iv + NcoreState d + i, (0 : ℝ))
   else [])

/-- The intrinsics part of an outlier point row; mrcal.c:4949-4976 -/
noncomputable def intrinsicsOutlierPoint (d : Dims) (iv : Int) (xy : Nat) : List (Int × ℝ) :=
  (if d.sel.core then [(iv + xy, (0 : ℝ)), (iv + xy + 2, (0 : ℝ))] else []) ++
  (if d.sel.distortions then
    match d.lens with
    | .splined order _ _ _ =>
      let runlen : Int := order + 1
      (loop (runlen * runlen)).map fun i => (iv + NcoreState d + i, (0 : ℝ))
    | lens => (loop (lens.numParams - Ncore lens)).map fun i => (iv + NcoreState d + i, (0 : ℝ))
   else [])

open Classical in
/-- One board measurement; mrcal.c:4706-4894 -/
noncomputable def boardRow (d : Dims) (o : BoardObs) (p : Proj) (fxy : Nat → ℝ) (ipt xy : Nat) : Row :=
  let iv := stateIndexIntrinsics o.icamI d
  let ic := stateIndexExtrinsics o.icamE d
  let ifr := stateIndexFrames o.iframe d
  let iw := stateIndexWarp d
  let w := o.weight ipt
  if w ≥ 0 then
    { x := (p.q xy - o.obs ipt xy) * w
      entries :=
        intrinsicsEntries d iv p fxy w xy ++
        (if d.sel.extrinsics then
          if o.icamE ≥ 0 then
            store3 (ic + 0) (p.drcam xy 0 * w * scaleRotCamera) (p.drcam xy 1 * w * scaleRotCamera)
              (p.drcam xy 2 * w * scaleRotCamera) ++
            store3 (ic + 3) (p.dtcam xy 0 * w * scaleTransCamera) (p.dtcam xy 1 * w * scaleTransCamera)
              (p.dtcam xy 2 * w * scaleTransCamera)
          else []
         else []) ++
        (if d.sel.frames then
          store3 (ifr + 0) (p.drframe xy 0 * w * scaleRotFrame) (p.drframe xy 1 * w * scaleRotFrame)
            (p.drframe xy 2 * w * scaleRotFrame) ++
          store3 (ifr + 3) (p.dtframe xy 0 * w * scaleTransFrame) (p.dtframe xy 1 * w * scaleTransFrame)
            (p.dtframe xy 2 * w * scaleTransFrame)
         else []) ++
        (if hasCalobjectWarp d.sel d.Nob then
          (loop 2).map fun i => (iw + i, w * scaleWarp * p.dwarp xy i)
         else []) }
  else
    { x := 0
      entries :=
        intrinsicsOutlierBoard d iv p xy ++
        (if d.sel.extrinsics then
          if o.icamE ≥ 0 then store3 (ic + 0) 0 0 0 ++ store3 (ic + 3) 0 0 0 else []
         else []) ++
        (if d.sel.frames then store3 (ifr + 0) 0 0 0 ++ store3 (ifr + 3) 0 0 0 else []) ++
        (if hasCalobjectWarp d.sel d.Nob then (loop 2).map fun i => (iw + i, 0) else []) }

/-- The board loop mrcal.c:4604-4898: observations, corners, x/y. -/
noncomputable def boardRows (c : Ctx) : List Row :=
  c.boards.zipIdx.flatMap fun (o, iobs) =>
    (List.range (c.W * c.H)).flatMap fun ipt =>
      [0, 1].map fun xy => boardRow c.d o (c.projBoard iobs ipt) (fun k => c.intrinsics o.icamI k) ipt xy

open Classical in
/-- One point measurement; mrcal.c:4906-5175 -/
noncomputable def pointRow (d : Dims) (o : PointObs) (p : Proj) (fxy : Nat → ℝ) (xy : Nat) : Row :=
  let usePos : Bool := d.sel.frames && decide (o.ipoint < d.Npoints - d.NpointsFixed)
  let iv := stateIndexIntrinsics o.icamI d
  let ic := stateIndexExtrinsics o.icamE d
  let ip := stateIndexPoints o.ipoint d
  let w := o.weight
  if w ≤ 0 then
    { x := 0
      entries :=
        intrinsicsOutlierPoint d iv xy ++
        (if decide (o.icamE ≥ 0) && d.sel.extrinsics then
          store3 (ic + 0) 0 0 0 ++ store3 (ic + 3) 0 0 0 else []) ++
        (if usePos then store3 ip 0 0 0 else []) }
  else
    { x := (p.q xy - o.obs xy) * w
      entries :=
        intrinsicsEntries d iv p fxy w xy ++
        (if d.sel.extrinsics then
          if o.icamE ≥ 0 then
            store3 (ic + 0) (p.drcam xy 0 * w * scaleRotCamera) (p.drcam xy 1 * w * scaleRotCamera)
              (p.drcam xy 2 * w * scaleRotCamera) ++
            store3 (ic + 3) (p.dtcam xy 0 * w * scaleTransCamera) (p.dtcam xy 1 * w * scaleTransCamera)
              (p.dtcam xy 2 * w * scaleTransCamera)
          else []
         else []) ++
        (if usePos then
          store3 ip (p.dpoint xy 0 * w * scalePoint) (p.dpoint xy 1 * w * scalePoint)
            (p.dpoint xy 2 * w * scalePoint)
         else []) }

/-- The point loop mrcal.c:4902-5176 -/
noncomputable def pointRows (c : Ctx) : List Row :=
  c.points.zipIdx.flatMap fun (o, iobs) =>
    [0, 1].map fun xy => pointRow c.d o (c.projPoint iobs) (fun k => c.intrinsics o.icamI k) xy

/-- One triangulated measurement; mrcal.c:5282-5573 and 5591-5645. `SCALE_JACOBIAN_N` multiplies
the gradient just computed into place. A pair with both cameras at the reference makes the C code
dereference NULL (mrcal.c:5333) unless one is an outlier; here such a row just has no entries. -/
noncomputable def triRow (d : Dims) (o0 o1 : TriObs) (r : TriRes) : Row :=
  let ic0 := stateIndexExtrinsics o0.icamE d
  let ic1 := stateIndexExtrinsics o1.icamE d
  if !o0.outlier then
    if !o1.outlier then
      { x := r.err
        entries :=
          (if o0.icamE ≥ 0 then
            store3 (ic0 + 0) (r.dr0 0 * scaleRotCamera) (r.dr0 1 * scaleRotCamera) (r.dr0 2 * scaleRotCamera) ++
            store3 (ic0 + 3) (r.dt0 0 * scaleTransCamera) (r.dt0 1 * scaleTransCamera)
              (r.dt0 2 * scaleTransCamera) else []) ++
          (if o1.icamE ≥ 0 then
            store3 (ic1 + 0) (r.dr1 0 * scaleRotCamera) (r.dr1 1 * scaleRotCamera) (r.dr1 2 * scaleRotCamera) ++
            store3 (ic1 + 3) (r.dt1 0 * scaleTransCamera) (r.dt1 1 * scaleTransCamera)
              (r.dt1 2 * scaleTransCamera) else []) }
    else
      { x := 0
        entries :=
          (if o0.icamE ≥ 0 then store3 (ic0 + 0) 0 0 0 ++ store3 (ic0 + 3) 0 0 0 else []) ++
          (if o1.icamE ≥ 0 then store3 (ic1 + 0) 0 0 0 ++ store3 (ic1 + 3) 0 0 0 else []) }
  else
    { x := 0
      entries :=
        (if o0.icamE ≥ 0 then store3 (ic0 + 0) 0 0 0 ++ store3 (ic0 + 3) 0 0 0 else []) ++
        (if o1.icamE ≥ 0 then store3 (ic1 + 0) 0 0 0 ++ store3 (ic1 + 3) 0 0 0 else []) }

/-- inner loop over i1, mrcal.c:5275-5578 and 5587-5650; `none` = reads past the end of the array -/
noncomputable def triRowsInner (d : Dims) (res : Nat → Nat → TriRes) (o0 : TriObs) (i0 i1 : Nat) :
    List TriObs → Option (List Row)
  | [] => none
  | o1 :: os =>
    let row := triRow d o0 o1 (res i0 i1)
    if o1.last then some [row] else (triRowsInner d res o0 i0 (i1 + 1) os).map (row :: ·)

/-- outer loop over i0, mrcal.c:5197-5652 -/
noncomputable def triRows (d : Dims) (res : Nat → Nat → TriRes) (i0 : Nat) :
    List TriObs → Option (List Row)
  | [] => some []
  | o0 :: os =>
    if o0.last then triRows d res (i0 + 1) os
    else do
      let rows ← triRowsInner d res o0 i0 (i0 + 1) os
      let rest ← triRows d res (i0 + 1) os
      pure (rows ++ rest)

/-- unit direction of a knot from the center, mrcal.c:5743-5757. Result: uxy and `anisotropic`.
(`2*ix - Nx + 1` is computed in `int`.) -/
noncomputable def knotDirection (ix iy Nx Ny : Int) : ℝ × ℝ × Bool :=
  let ux : ℝ := ((2 * ix - Nx + 1 : Int) : ℝ)
  let uy : ℝ := ((2 * iy - Ny + 1 : Int) : ℝ)
  if 2 * ix = Nx - 1 ∧ 2 * iy = Ny - 1 then (1, uy, false)
  else
    let mag := Real.sqrt (ux * ux + uy * uy)
    (ux / mag, uy / mag, true)

/-- The two regularization measurements of one knot; mrcal.c:5739-5783.
`scale = nominal_pixel_error / nominal_err = 0.1/10`. -/
noncomputable def knotRows (d : Dims) (intr : Int → ℝ) (iv ix iy Nx Ny : Int) : List Row :=
  let scale : ℝ := 0.1 / 10
  let ivar := 2 * (iy * Nx + ix)
  let du0 := intr (Ncore d.lens + ivar + 0)
  let du1 := intr (Ncore d.lens + ivar + 1)
  let u := knotDirection ix iy Nx Ny
  let extra : ℝ := if u.2.2 then 10 else 1
  [ { x := scale * (du0 * u.1 + du1 * u.2.1)
      entries := [(iv + NcoreState d + ivar + 0, scale * u.1 * scaleDistortion),
                  (iv + NcoreState d + ivar + 1, scale * u.2.1 * scaleDistortion)] },
    { x := scale * extra * (du0 * u.2.1 - du1 * u.1)
      entries := [(iv + NcoreState d + ivar + 0, scale * extra * u.2.1 * scaleDistortion),
                  (iv + NcoreState d + ivar + 1, -scale * extra * u.1 * scaleDistortion)] } ]

/-- mrcal.c:5811-5834: are the regularization terms of this coefficient stronger? -/
def isRationalDenominator (lens : Lens) (j : Int) : Bool :=
  (match lens with | .opencv8 => true | .opencv12 => true | _ => false) && decide (5 ≤ j) && decide (j ≤ 7)

/-- Non-core regularization; mrcal.c:5706-5851 -/
noncomputable def regDistortionRows (c : Ctx) : List Row :=
  if c.d.sel.regularization && c.d.sel.distortions then
    match c.d.lens with
    | .splined _ Nx Ny _ =>
      (loop c.d.Nci).flatMap fun icam =>
        let iv := stateIndexIntrinsics icam c.d
        (loop Ny).flatMap fun iy => (loop Nx).flatMap fun ix =>
          knotRows c.d (c.intrinsics icam) iv ix iy Nx Ny
    | lens =>
      (loop c.d.Nci).flatMap fun icam =>
        let iv := stateIndexIntrinsics icam c.d
        (loop (lens.numParams - Ncore lens)).map fun j =>
          let scale : ℝ := if isRationalDenominator lens j then 0.1 / 1 * 5 else 0.1 / 1
          { x := scale * c.intrinsics icam (j + Ncore lens)
            entries := [(iv + NcoreState c.d + j, scale * scaleDistortion)] }
  else []

/-- Center-pixel regularization; mrcal.c:5854-5901 -/
noncomputable def regCenterRows (c : Ctx) : List Row :=
  if c.d.sel.regularization && c.d.lens.hasCore && c.d.sel.core then
    let scale : ℝ := 0.1 / (c.imagersizes 0 * 0.1)
    (loop c.d.Nci).flatMap fun icam =>
      let iv := stateIndexIntrinsics icam c.d
      [ { x := scale * (c.intrinsics icam 2 - 0.5 * (c.imagersizes (icam * 2 + 0) - 1))
          entries := [(iv + 2, scale * scaleCenter)] },
        { x := scale * (c.intrinsics icam 3 - 0.5 * (c.imagersizes (icam * 2 + 1) - 1))
          entries := [(iv + 3, scale * scaleCenter)] } ]
  else []

/-- unity_cam01 regularization; mrcal.c:5904-5954 -/
noncomputable def regUnityRows (c : Ctx) : List Row :=
  if c.d.sel.unityCam01 && c.d.sel.extrinsics && decide (c.d.Nce > 0) then
    let scale : ℝ := 0.1 / (1 * 0.01)
    let ie := stateIndexExtrinsics 0 c.d
    [ { x := scale * ((c.t0 0 * c.t0 0 + c.t0 1 * c.t0 1 + c.t0 2 * c.t0 2) - 1)
        entries := (loop 3).map fun i => (ie + 3 + i, scale * scaleTransCamera * 2 * c.t0 i.toNat) } ]
  else []

/-- All the measurements, in order. `none`: reads past the end of the triangulated observations. -/
noncomputable def allRows (c : Ctx) : Option (List Row) :=
  (triRows c.d c.projTri 0 c.tri).map fun t =>
    boardRows c ++ pointRows c ++ t ++ (regDistortionRows c ++ regCenterRows c ++ regUnityRows c)

/-- The output buffers. `x.length` is `iMeasurement`, `cols.length` is `iJacobian`. -/
structure Out where
  x : List ℝ
  rowptr : List Nat
  cols : List Int
  vals : List ℝ

/-- What each measurement does with the buffers: `Jrowptr[iMeasurement]=iJacobian; x[iMeasurement]=err;
STORE_JACOBIAN...; iMeasurement++`. Both cursors only ever move forward past what was just written, so the
arrays are modelled as append-only lists. -/
def emit (o : Out) (r : Row) : Out :=
  { x := o.x ++ [r.x]
    rowptr := o.rowptr ++ [o.cols.length]
    cols := o.cols ++ r.entries.map (·.1)
    vals := o.vals ++ r.entries.map (·.2) }

/-- `optimizer_callback` mrcal.c:4445-5970 with the final `Jrowptr[iMeasurement]=iJacobian` (5957). -/
noncomputable def optimizerCallback (c : Ctx) : Option Out :=
  (allRows c).map fun rows =>
    let o := rows.foldl emit ⟨[], [], [], []⟩
    { o with rowptr := o.rowptr ++ [o.cols.length] }

/-! ### `_mrcal_num_j_nonzero` -/

/-- Nintrinsics_per_measurement mrcal.c:768-784 -/
def numIntrinsicsPerMeasurement (d : Dims) : Int :=
  let N := match d.lens with
    | .splined order _ _ _ =>
      let run : Int := order + 1
      (if d.sel.core then 4 else 0) + (if d.sel.distortions then run * run else 0)
    | lens => numIntrinsicsOpt d.sel lens
  if d.sel.core && d.lens.hasCore then N - 2 else N

/-- inner do-while loop mrcal.c:829-842 -/
def triNnzInner (Nvars0 : Int) (nv : TriObs → Int) (N : Int) : List TriObs → Option Int
  | [] => none
  | o1 :: os =>
    let N' := N + (Nvars0 + nv o1)
    if o1.last then some N' else triNnzInner Nvars0 nv N' os

/-- outer loop mrcal.c:819-843 -/
def triNnz (nv : TriObs → Int) (N : Int) : List TriObs → Option Int
  | [] => some N
  | o0 :: os =>
    if o0.last then triNnz nv N os
    else (triNnzInner (nv o0) nv N os).bind fun N' => triNnz nv N' os

/-- `_mrcal_num_j_nonzero` mrcal.c:743-882 -/
def numJNonzero (d : Dims) (W H : Int) (boards : List BoardObs) (points : List PointObs)
    (tri : List TriObs) : Option Int :=
  let Ni := numIntrinsicsPerMeasurement d
  let N := d.Nob * ((if d.sel.frames then 6 else 0) + (if d.sel.extrinsics then 6 else 0) +
      (if hasCalobjectWarp d.sel d.Nob then 2 else 0) + Ni)
  let N := if d.sel.extrinsics then
      boards.foldl (fun N o => if o.icamE < 0 then N - 6 else N) N else N
  let N := N * (2 * W * H)
  let N := points.foldl (fun N o =>
      let N := N + 2 * Ni
      let N := if d.sel.frames && decide (o.ipoint < d.Npoints - d.NpointsFixed) then N + 2 * 3 else N
      if d.sel.extrinsics && decide (o.icamE ≥ 0) then N + 2 * 6 else N) N
  let nv := fun o : TriObs => if d.sel.extrinsics && decide (o.icamE ≥ 0) then Ni + 6 else Ni
  (triNnz nv N tri).map fun N =>
    let N :=
      if d.lens.isSplined then
        if d.sel.regularization then
          let N := N + d.Nci * 2 * numRegularizationPercamera d.sel d.lens
          if d.sel.core then N - d.Nci * 2 else N
        else N
      else N + d.Nci * numRegularizationPercamera d.sel d.lens
    if d.sel.unityCam01 && d.sel.extrinsics && decide (d.Nce > 0) then N + 3 else N

end Mrcal.Callback
