import Verif.Model.Pose
/-
Rotating points with, and composing, Rodrigues vectors: poseutils-uses-autodiff.cc; and the rt functions in poseutils.c that use these.
The gradients come from the automatic differentiation (Model/Autodiff.lean). Arithmetic is exact: `double` is ℝ. Arrays are values: strides, and operating
in-place, aren't modelled.
-/
namespace Mrcal.Pose
open AD

variable {N : Nat}

/-- `rotate_point_r_core` poseutils-uses-autodiff.cc:16-80 -/
noncomputable def rotatePointRCore (rg x : Vec3 N) (inverted : Bool) : Vec3 N :=
  let sign : ℝ := if inverted then -1 else 1
  let th2 : Val N := ((rg.x.mul rg.x).add (rg.y.mul rg.y)).add (rg.z.mul rg.z)
  let cross : Vec3 N :=
    ⟨((rg.y.mul x.z).sub (rg.z.mul x.y)).mulC sign,
     ((rg.z.mul x.x).sub (rg.x.mul x.z)).mulC sign,
     ((rg.x.mul x.y).sub (rg.y.mul x.x)).mulC sign⟩
  let inner : Val N := ((rg.x.mul x.x).add (rg.y.mul x.y)).add (rg.z.mul x.z)
  if th2.x < 1e-10 then
    let f (xi ci ri : Val N) : Val N := (xi.add ci).add ((ri.mul inner).divC 2)
    ⟨f x.x cross.x rg.x, f x.y cross.y rg.y, f x.z cross.z rg.z⟩
  else
    let th := th2.sqrt
    let s := th.sin
    let c := th.cos
    let f (xi ci ri : Val N) : Val N :=
      ((xi.mul c).add ((ci.mul s).div th)).add (((ri.mul inner).mul ((Val.ofR 1).sub c)).div th2)
    ⟨f x.x cross.x rg.x, f x.y cross.y rg.y, f x.z cross.z rg.z⟩

/-- the (3,3) gradient written by `extract_grad(J, g, 3, 0, ...)` -/
def gradM (v : Vec3 N) (g : Nat) (h : g + 2 < N) : M3 :=
  let (a, b, c) := v.grad g h
  ⟨a.x, a.y, a.z, b.x, b.y, b.z, c.x, c.y, c.z⟩

/-- a transformed point, and the gradients: `none` if that gradient wasn't requested (the pointer was NULL) -/
structure PointR where
  x : P3
  Jr : Option M3
  Jx : Option M3

/-- `mrcal_rotate_point_r_full` poseutils-uses-autodiff.cc:82-155: 4 cases based on which gradients were requested -/
noncomputable def rotatePointr (r x : P3) (inverted : Bool) (wantJr wantJx : Bool) : PointR :=
  if !wantJr && !wantJx then
    let o : Vec3 0 := rotatePointRCore (Vec3.init r none) (Vec3.init x none) inverted
    ⟨o.value, none, none⟩
  else if wantJr && !wantJx then
    let o : Vec3 3 := rotatePointRCore (Vec3.init r (some 0)) (Vec3.init x none) inverted
    ⟨o.value, some (gradM o 0 (by omega)), none⟩
  else if !wantJr && wantJx then
    let o : Vec3 3 := rotatePointRCore (Vec3.init r none) (Vec3.init x (some 0)) inverted
    ⟨o.value, none, some (gradM o 0 (by omega))⟩
  else
    let o : Vec3 6 := rotatePointRCore (Vec3.init r (some 0)) (Vec3.init x (some 3)) inverted
    ⟨o.value, some (gradM o 0 (by omega)), some (gradM o 3 (by omega))⟩

/-- a transformed point, and the gradients. J_rt is stored as J_r, J_t -/
structure PointRt where
  x : P3
  Jrt : Option (M3 × M3)
  Jx : Option M3

/-- `mrcal_transform_point_rt_full` poseutils-uses-autodiff.cc:157-275 -/
noncomputable def transformPointrt (T : RtV) (x : P3) (inverted : Bool) (wantJrt wantJx : Bool) : PointRt :=
  if !inverted then
    let o := rotatePointr T.r x false wantJrt wantJx
    ⟨addP o.x T.t, o.Jr.map (fun J => (J, identityR)), o.Jx⟩
  else if !wantJrt && !wantJx then
    let o : Vec3 0 := rotatePointRCore (Vec3.init T.r none) ((Vec3.init x none).sub (Vec3.init T.t none)) true
    ⟨o.value, none, none⟩
  else if wantJrt && !wantJx then
    let o : Vec3 6 := rotatePointRCore (Vec3.init T.r (some 0)) ((Vec3.init x none).sub (Vec3.init T.t (some 3))) true
    ⟨o.value, some (gradM o 0 (by omega), gradM o 3 (by omega)), none⟩
  else if !wantJrt && wantJx then
    let o : Vec3 3 := rotatePointRCore (Vec3.init T.r none) ((Vec3.init x (some 0)).sub (Vec3.init T.t none)) true
    ⟨o.value, none, some (gradM o 0 (by omega))⟩
  else
    let o : Vec3 9 := rotatePointRCore (Vec3.init T.r (some 0)) ((Vec3.init x (some 3)).sub (Vec3.init T.t (some 6))) true
    ⟨o.value, some (gradM o 0 (by omega), gradM o 6 (by omega)), some (gradM o 3 (by omega))⟩

/-- `mrcal_invert_rt_full` poseutils.c:557-597: the output, dtout_drin, dtout_dtin. Both gradients are requested -/
noncomputable def invertrt (T : RtV) : RtV × M3 × M3 :=
  let r := negP T.r
  let o := rotatePointr r T.t false true true
  (⟨r, negP o.x⟩, o.Jr.getD identityR, negM (o.Jx.getD identityR))

/-- `eps` poseutils-uses-autodiff.cc:450 -/
noncomputable def cEps : ℝ := 1e-8

/-- `compose_r_core` poseutils-uses-autodiff.cc:278-769 -/
noncomputable def composeRCore (r0 r1 : Vec3 N) : Vec3 N :=
  let A := r0.mag.divC 2
  let B := r1.mag.divC 2
  let inner := r0.dot r1
  let cross := r0.cross r1
  if A.x < cEps / 2 then
    if B.x < cEps then r0.add r1
    else
      let B_over_tanB := B.div B.tan
      let f (r0i r1i ci : Val N) : Val N :=
        ((r1i.mul ((Val.ofR 1).sub ((inner.mul (B_over_tanB.subC 1)).div ((B.mul B).mulC 4)))).add (r0i.mul B_over_tanB)).add (ci.divC 2)
      ⟨f r0.x r1.x cross.x, f r0.y r1.y cross.y, f r0.z r1.z cross.z⟩
  else if B.x < cEps then
    let A_over_tanA := A.div A.tan
    let f (r0i r1i ci : Val N) : Val N :=
      ((r0i.mul ((Val.ofR 1).sub ((inner.mul (A_over_tanA.subC 1)).div ((A.mul A).mulC 4)))).add (r1i.mul A_over_tanA)).add (ci.divC 2)
    ⟨f r0.x r1.x cross.x, f r0.y r1.y cross.y, f r0.z r1.z cross.z⟩
  else
    let sinA := A.sin
    let cosA := A.cos
    let sinB := B.sin
    let cosB := B.cos
    let sinA_over_A := A.sinxOverX sinA
    let sinB_over_B := B.sinxOverX sinB
    let cosC := (cosA.mul cosB).sub (((sinA_over_A.mul sinB_over_B).mul inner).divC 4)
    let f (r0i r1i ci : Val N) : Val N :=
      (((sinA_over_A.mul cosB).mul r0i).add ((sinB_over_B.mul cosA).mul r1i)).add (((sinA_over_A.mul sinB_over_B).mul ci).divC 2)
    let r : Vec3 N := ⟨f r0.x r1.x cross.x, f r0.y r1.y cross.y, f r0.z r1.z cross.z⟩
    if cosC.x - 1 > -cEps * cEps / 2 then r
    else if cosC.x + 1 < cEps * cEps / 2 then r.mulC (-1)
    else if cosC.x < 0 then
      let C := cosC.acos
      let sinC := ((Val.ofR 1).sub (cosC.mul cosC)).sqrt
      r.mulV ((C.subC Real.pi).div sinC)
    else
      let C := cosC.acos
      let sinC := ((Val.ofR 1).sub (cosC.mul cosC)).sqrt
      r.mulV (C.div sinC)

/-- a composed rotation, and the gradients: `none` if that gradient wasn't requested -/
structure ComposeR where
  r : P3
  J0 : Option M3
  J1 : Option M3

/-- `if(inverted) r *= -1` -/
def flip (v : Vec3 N) (inverted : Bool) : Vec3 N := if inverted then v.mulC (-1) else v

/-- `mrcal_compose_r_full` poseutils-uses-autodiff.cc:771-900 -/
noncomputable def composer (r0 r1 : P3) (inverted0 inverted1 : Bool) (want0 want1 : Bool) : ComposeR :=
  if !want0 && !want1 then
    let o : Vec3 0 := composeRCore (flip (Vec3.init r0 none) inverted0) (flip (Vec3.init r1 none) inverted1)
    ⟨o.value, none, none⟩
  else if want0 && !want1 then
    let o : Vec3 3 := composeRCore (flip (Vec3.init r0 (some 0)) inverted0) (flip (Vec3.init r1 none) inverted1)
    ⟨o.value, some (gradM o 0 (by omega)), none⟩
  else if !want0 && want1 then
    let o : Vec3 3 := composeRCore (flip (Vec3.init r0 none) inverted0) (flip (Vec3.init r1 (some 0)) inverted1)
    ⟨o.value, none, some (gradM o 0 (by omega))⟩
  else
    let o : Vec3 6 := composeRCore (flip (Vec3.init r0 (some 0)) inverted0) (flip (Vec3.init r1 (some 3)) inverted1)
    ⟨o.value, some (gradM o 0 (by omega)), some (gradM o 3 (by omega))⟩

/-- what `mrcal_compose_rt_full` returns. All the gradients are requested -/
structure ComposeRt where
  rt : RtV
  dr_r0 : M3
  dr_r1 : M3
  dt_r0 : M3
  dt_r1 : M3
  dt_t0 : M3
  dt_t1 : M3

/-- the all-0 matrix -/
def zeroM : M3 := ⟨0, 0, 0, 0, 0, 0, 0, 0, 0⟩

/-- `mrcal_compose_rt_full` poseutils.c:746-1003 -/
noncomputable def composert (T0 T1 : RtV) (inverted0 inverted1 : Bool) : ComposeRt :=
  let c := composer T0.r T1.r inverted0 inverted1 true true
  let J0 := c.J0.getD identityR
  let J1 := c.J1.getD identityR
  if !inverted0 && !inverted1 then
    let o := rotatePointr T0.r T1.t false true true
    { rt := ⟨c.r, addP o.x T0.t⟩, dr_r0 := J0, dr_r1 := J1,
      dt_r0 := o.Jr.getD identityR, dt_r1 := zeroM, dt_t0 := identityR, dt_t1 := o.Jx.getD identityR }
  else if inverted0 && !inverted1 then
    let o := rotatePointr T0.r (subP T1.t T0.t) true true true
    { rt := ⟨c.r, o.x⟩, dr_r0 := J0, dr_r1 := J1,
      dt_r0 := o.Jr.getD identityR, dt_r1 := zeroM, dt_t0 := negM (o.Jx.getD identityR), dt_t1 := o.Jx.getD identityR }
  else if !inverted0 && inverted1 then
    let p := rotatePointr T1.r T1.t true true true
    let dp_r1 := negM (p.Jr.getD identityR)
    let dp_t1 := negM (p.Jx.getD identityR)
    let o := rotatePointr T0.r (negP p.x) false true true
    let dt_p := o.Jx.getD identityR
    { rt := ⟨c.r, addP o.x T0.t⟩, dr_r0 := J0, dr_r1 := J1,
      dt_r0 := o.Jr.getD identityR, dt_r1 := mul dt_p dp_r1, dt_t0 := identityR, dt_t1 := mul dt_p dp_t1 }
  else
    let p := rotatePointr T1.r T1.t true true true
    let dp_r1 := negM (p.Jr.getD identityR)
    let dp_t1 := negM (p.Jx.getD identityR)
    let o := rotatePointr T0.r (subP (negP p.x) T0.t) true true true
    let dt_p := o.Jx.getD identityR
    { rt := ⟨c.r, o.x⟩, dr_r0 := J0, dr_r1 := J1,
      dt_r0 := o.Jr.getD identityR, dt_r1 := mul dt_p dp_r1, dt_t0 := negM dt_p, dt_t1 := mul dt_p dp_t1 }

/-- `mrcal_compose_r_tinyr0_gradientr0_full` poseutils.c:1005-1070 -/
noncomputable def tinyr0_gradientr0 (r1 : P3) : M3 :=
  let n2 := norm2 r1
  if n2 < 2e-8 * 2e-8 then identityR
  else
    let B := Real.sqrt n2 / 2
    let b := B / Real.tan B
    let f (i j : ℝ) : ℝ := -i * j * (b - 1) / (4 * B * B)
    { a00 := f r1.x r1.x + b
      a01 := f r1.x r1.y - -r1.z / 2
      a02 := f r1.x r1.z - r1.y / 2
      a10 := f r1.y r1.x - r1.z / 2
      a11 := f r1.y r1.y + b
      a12 := f r1.y r1.z - -r1.x / 2
      a20 := f r1.z r1.x - -r1.y / 2
      a21 := f r1.z r1.y - r1.x / 2
      a22 := f r1.z r1.z + b }

/-- `mrcal_compose_r_tinyr1_gradientr1_full` poseutils.c:1072-1137 -/
noncomputable def tinyr1_gradientr1 (r0 : P3) : M3 :=
  let n2 := norm2 r0
  if n2 < 2e-8 * 2e-8 then identityR
  else
    let A := Real.sqrt n2 / 2
    let a := A / Real.tan A
    let f (i j : ℝ) : ℝ := -i * j * (a - 1) / (4 * A * A)
    { a00 := f r0.x r0.x + a
      a01 := f r0.x r0.y + -r0.z / 2
      a02 := f r0.x r0.z + r0.y / 2
      a10 := f r0.y r0.x + r0.z / 2
      a11 := f r0.y r0.y + a
      a12 := f r0.y r0.z + -r0.x / 2
      a20 := f r0.z r0.x + -r0.y / 2
      a21 := f r0.z r0.y + r0.x / 2
      a22 := f r0.z r0.z + a }

/-- `cofactors_sym3` minimath.h:374-384: a symmetric matrix, upper triangle, row-first: the cofactors and the determinant -/
def cofactorsSym3 (m : Fin 6 → ℝ) : (Fin 6 → ℝ) × ℝ :=
  let c : Fin 6 → ℝ := ![m 3 * m 5 - m 4 * m 4, m 2 * m 4 - m 1 * m 5, m 1 * m 4 - m 2 * m 3,
    m 0 * m 5 - m 2 * m 2, m 1 * m 2 - m 0 * m 4, m 0 * m 3 - m 1 * m 1]
  (c, m 0 * c 0 + m 1 * c 1 + m 2 * c 2)

/-- elementwise product, summed: the product of flattened matrices -/
def dot9 (A B : M3) : ℝ :=
  A.a00 * B.a00 + A.a01 * B.a01 + A.a02 * B.a02 + A.a10 * B.a10 + A.a11 * B.a11 + A.a12 * B.a12 +
  A.a20 * B.a20 + A.a21 * B.a21 + A.a22 * B.a22

/-- the `J` of `mrcal_r_from_R_full` poseutils.c:1354-1436: J[0,:,:], J[1,:,:], J[2,:,:] -/
noncomputable def r_from_R_J (R : M3) : M3 × M3 × M3 :=
  let D := R_from_r_J (r_from_R R)
  let m : Fin 6 → ℝ := ![dot9 D.1 D.1, dot9 D.1 D.2.1, dot9 D.1 D.2.2, dot9 D.2.1 D.2.1, dot9 D.2.1 D.2.2, dot9 D.2.2 D.2.2]
  let (c, det) := cofactorsSym3 m
  let inv_det := 1 / det
  -- mul_vec3_sym33_vout_scaled(): element k of (dR[i,j]/dr) times the symmetric matrix
  let f (c0 c1 c2 : ℝ) : M3 :=
    let g (a b d : ℝ) : ℝ := inv_det * (c0 * a + c1 * b + c2 * d)
    ⟨g D.1.a00 D.2.1.a00 D.2.2.a00, g D.1.a01 D.2.1.a01 D.2.2.a01, g D.1.a02 D.2.1.a02 D.2.2.a02,
     g D.1.a10 D.2.1.a10 D.2.2.a10, g D.1.a11 D.2.1.a11 D.2.2.a11, g D.1.a12 D.2.1.a12 D.2.2.a12,
     g D.1.a20 D.2.1.a20 D.2.2.a20, g D.1.a21 D.2.1.a21 D.2.2.a21, g D.1.a22 D.2.1.a22 D.2.2.a22⟩
  (f (c 0) (c 1) (c 2), f (c 1) (c 3) (c 4), f (c 2) (c 4) (c 5))

end Mrcal.Pose
