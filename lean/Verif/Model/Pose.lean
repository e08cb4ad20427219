import Verif.Model.Geom
import Verif.Model.Autodiff
/-
Poses: poseutils.c, poseutils-opencv.c, poseutils-uses-autodiff.cc. Arithmetic is exact: `double` is ℝ. Arrays are values: the strides, and operating
in-place, aren't modelled here.
-/
namespace Mrcal

/-- a (3,3) matrix. `axy` is row x, column y -/
@[ext] structure M3 where
  a00 : ℝ
  a01 : ℝ
  a02 : ℝ
  a10 : ℝ
  a11 : ℝ
  a12 : ℝ
  a20 : ℝ
  a21 : ℝ
  a22 : ℝ

/-- a (4,3) array: R on top of t -/
@[ext] structure Rt where
  R : M3
  t : P3

/-- a (6,) array: r and then t -/
@[ext] structure RtV where
  r : P3
  t : P3

namespace Pose

/-- swapping the two strides -/
def transpose (M : M3) : M3 := ⟨M.a00, M.a10, M.a20, M.a01, M.a11, M.a21, M.a02, M.a12, M.a22⟩

/-- `mul_vec3_gen33t_vout_scaled_full` poseutils.c:35-58: scale M v -/
def mulVec (M : M3) (v : P3) (scale : ℝ := 1) : P3 :=
  ⟨scale * (M.a00 * v.x + M.a01 * v.y + M.a02 * v.z),
   scale * (M.a10 * v.x + M.a11 * v.y + M.a12 * v.z),
   scale * (M.a20 * v.x + M.a21 * v.y + M.a22 * v.z)⟩

/-- `mul_vec3_gen33_vout_scaled_full` poseutils.c:66-89: scale v M (row vectors) -/
def vecMul (v : P3) (M : M3) (scale : ℝ := 1) : P3 :=
  ⟨scale * (M.a00 * v.x + M.a10 * v.y + M.a20 * v.z),
   scale * (M.a01 * v.x + M.a11 * v.y + M.a21 * v.z),
   scale * (M.a02 * v.x + M.a12 * v.y + M.a22 * v.z)⟩

/-- `mul_gen33_gen33_vout_full` poseutils.c:149-173: one row at a time -/
def mul (A B : M3) : M3 :=
  let r0 := vecMul ⟨A.a00, A.a01, A.a02⟩ B
  let r1 := vecMul ⟨A.a10, A.a11, A.a12⟩ B
  let r2 := vecMul ⟨A.a20, A.a21, A.a22⟩ B
  ⟨r0.x, r0.y, r0.z, r1.x, r1.y, r1.z, r2.x, r2.y, r2.z⟩

/-- `mrcal_identity_R_full` poseutils.c:236-245 -/
def identityR : M3 := ⟨1, 0, 0, 0, 1, 0, 0, 0, 1⟩
/-- `mrcal_identity_Rt_full` poseutils.c:253-261 -/
def identityRt : Rt := ⟨identityR, ⟨0, 0, 0⟩⟩
/-- `mrcal_identity_rt_full` poseutils.c:262-269 -/
def identityrt : RtV := ⟨⟨0, 0, 0⟩, ⟨0, 0, 0⟩⟩

/-- `mrcal_rotate_point_R_full` poseutils.c:271-345. The flag swaps the strides of R -/
def rotatePointR (R : M3) (x : P3) (inverted : Bool) : P3 :=
  mulVec (if inverted then transpose R else R) x

/-- `J_R` of `mrcal_rotate_point_R_full` poseutils.c:314-329: for each of the 3 outputs, the gradient with respect to each element of the R that was given. The flag
swaps the last two strides of the output -/
def rotatePointR_JR (x : P3) (inverted : Bool) : M3 × M3 × M3 :=
  let f (m : M3) := if inverted then transpose m else m
  (f ⟨x.x, x.y, x.z, 0, 0, 0, 0, 0, 0⟩, f ⟨0, 0, 0, x.x, x.y, x.z, 0, 0, 0⟩, f ⟨0, 0, 0, 0, 0, 0, x.x, x.y, x.z⟩)

/-- `J_x` of `mrcal_rotate_point_R_full` poseutils.c:330-333 -/
def rotatePointR_Jx (R : M3) (inverted : Bool) : M3 := if inverted then transpose R else R

/-- vector sum, difference -/
def addP (a b : P3) : P3 := ⟨a.x + b.x, a.y + b.y, a.z + b.z⟩
def subP (a b : P3) : P3 := ⟨a.x - b.x, a.y - b.y, a.z - b.z⟩
def negP (a : P3) : P3 := ⟨-a.x, -a.y, -a.z⟩
def negM (M : M3) : M3 := ⟨-M.a00, -M.a01, -M.a02, -M.a10, -M.a11, -M.a12, -M.a20, -M.a21, -M.a22⟩

/-- `mrcal_transform_point_Rt_full` poseutils.c:352-424 -/
def transformPointRt (T : Rt) (x : P3) (inverted : Bool) : P3 :=
  if !inverted then addP (rotatePointR T.R x false) T.t
  else rotatePointR T.R (subP x T.t) true

/-- the `J_t` slice of `J_Rt`: poseutils.c:395-397, 418-422 -/
def transformPointRt_Jt (T : Rt) (inverted : Bool) : M3 :=
  if !inverted then identityR else negM (transpose T.R)

/-- the `J_R` slice of `J_Rt` -/
def transformPointRt_JR (T : Rt) (x : P3) (inverted : Bool) : M3 × M3 × M3 :=
  if !inverted then rotatePointR_JR x false else rotatePointR_JR (subP x T.t) true

/-- `J_x` -/
def transformPointRt_Jx (T : Rt) (inverted : Bool) : M3 := rotatePointR_Jx T.R inverted

/-- `mrcal_invert_R_full` poseutils.c:432-457 -/
def invertR (R : M3) : M3 := transpose R

/-- `mrcal_invert_Rt_full` poseutils.c:521-552 -/
def invertRt (T : Rt) : Rt :=
  let R := transpose T.R
  ⟨R, mulVec R T.t (-1)⟩

/-- `mrcal_compose_Rt_full` poseutils.c:603-733 -/
def composeRt (A B : Rt) (inverted0 inverted1 : Bool) : Rt :=
  if !inverted0 && !inverted1 then
    ⟨mul A.R B.R, addP (mulVec A.R B.t) A.t⟩
  else if inverted0 && !inverted1 then
    let t10 := subP B.t A.t
    ⟨mul (transpose A.R) B.R, vecMul t10 A.R⟩
  else if !inverted0 && inverted1 then
    let R := mul A.R (transpose B.R)
    ⟨R, addP (negP (mulVec R B.t)) A.t⟩
  else
    let R0t_t0 := vecMul A.t A.R
    let R := mul (transpose A.R) (transpose B.R)
    ⟨R, subP (negP (mulVec R B.t)) R0t_t0⟩

/-! ### Rodrigues vectors -/

/-- `DBL_EPSILON` -/
noncomputable def dblEpsilon : ℝ := 1 / 2 ^ 52

/-- sum of squares -/
def norm2 (r : P3) : ℝ := r.x * r.x + r.y * r.y + r.z * r.z

/-- `mrcal_R_from_r_full` poseutils-opencv.c:41-106 -/
noncomputable def R_from_r (r : P3) : M3 :=
  let norm2r := norm2 r
  if norm2r < dblEpsilon * dblEpsilon then identityR
  else
    let theta := Real.sqrt norm2r
    let s := Real.sin theta
    let c := Real.cos theta
    let c1 := 1 - c
    let itheta := 1 / theta
    let u : P3 := ⟨r.x * itheta, r.y * itheta, r.z * itheta⟩
    { a00 := c + c1 * u.x * u.x
      a01 := c1 * u.x * u.y - s * u.z
      a02 := c1 * u.x * u.z + s * u.y
      a10 := c1 * u.x * u.y + s * u.z
      a11 := c + c1 * u.y * u.y
      a12 := c1 * u.y * u.z - s * u.x
      a20 := c1 * u.x * u.z - s * u.y
      a21 := c1 * u.y * u.z + s * u.x
      a22 := c + c1 * u.z * u.z }

/-- the `J` of `mrcal_R_from_r_full` poseutils-opencv.c:62-75, 108-156: J[:,:,0], J[:,:,1], J[:,:,2] -/
noncomputable def R_from_r_J (r : P3) : M3 × M3 × M3 :=
  let norm2r := norm2 r
  if norm2r < dblEpsilon * dblEpsilon then
    (⟨0, 0, 0, 0, 0, -1, 0, 1, 0⟩, ⟨0, 0, 1, 0, 0, 0, -1, 0, 0⟩, ⟨0, -1, 0, 1, 0, 0, 0, 0, 0⟩)
  else
    let theta := Real.sqrt norm2r
    let s := Real.sin theta
    let c := Real.cos theta
    let c1 := 1 - c
    let itheta := 1 / theta
    let u : P3 := ⟨r.x * itheta, r.y * itheta, r.z * itheta⟩
    let a2 := itheta * c1
    let a4 := itheta * s
    ( let a0 := -s * u.x
      let a1 := (s - 2 * a2) * u.x
      let a3 := (c - a4) * u.x
      { a00 := a0 + a1 * u.x * u.x + a2 * (u.x + u.x)
        a01 := a1 * u.x * u.y + a2 * u.y - a3 * u.z
        a02 := a1 * u.x * u.z + a2 * u.z + a3 * u.y
        a10 := a1 * u.x * u.y + a2 * u.y + a3 * u.z
        a11 := a0 + a1 * u.y * u.y
        a12 := a1 * u.y * u.z - a3 * u.x - a4
        a20 := a1 * u.x * u.z + a2 * u.z - a3 * u.y
        a21 := a1 * u.y * u.z + a3 * u.x + a4
        a22 := a0 + a1 * u.z * u.z },
      let a0 := -s * u.y
      let a1 := (s - 2 * a2) * u.y
      let a3 := (c - a4) * u.y
      { a00 := a0 + a1 * u.x * u.x
        a01 := a1 * u.x * u.y + a2 * u.x - a3 * u.z
        a02 := a1 * u.x * u.z + a3 * u.y + a4
        a10 := a1 * u.x * u.y + a2 * u.x + a3 * u.z
        a11 := a0 + a1 * u.y * u.y + a2 * (u.y + u.y)
        a12 := a1 * u.y * u.z + a2 * u.z - a3 * u.x
        a20 := a1 * u.x * u.z - a3 * u.y - a4
        a21 := a1 * u.y * u.z + a2 * u.z + a3 * u.x
        a22 := a0 + a1 * u.z * u.z },
      let a0 := -s * u.z
      let a1 := (s - 2 * a2) * u.z
      let a3 := (c - a4) * u.z
      { a00 := a0 + a1 * u.x * u.x
        a01 := a1 * u.x * u.y - a3 * u.z - a4
        a02 := a1 * u.x * u.z + a2 * u.x + a3 * u.y
        a10 := a1 * u.x * u.y + a3 * u.z + a4
        a11 := a0 + a1 * u.y * u.y
        a12 := a1 * u.y * u.z + a2 * u.y - a3 * u.x
        a20 := a1 * u.x * u.z + a2 * u.x - a3 * u.y
        a21 := a1 * u.y * u.z + a2 * u.y + a3 * u.x
        a22 := a0 + a1 * u.z * u.z + a2 * (u.z + u.z) } )

/-- `eps` poseutils.c:1203 -/
noncomputable def rEps : ℝ := 1e-8

/-- the near-180-degree branch of `mrcal_r_from_R_full`: `v` poseutils.c:1302-1351. The three elements, with signs -/
noncomputable def r_from_R_axis180 (R : M3) : P3 :=
  let f (vsq : ℝ) : ℝ := if vsq > 0 then Real.sqrt vsq else 0
  let v : P3 := ⟨f ((R.a00 + 1) / 2), f ((R.a11 + 1) / 2), f ((R.a22 + 1) / 2)⟩
  if v.x > 0.1 then
    ⟨v.x, if R.a01 + R.a10 < 0 then v.y * -1 else v.y, if R.a02 + R.a20 < 0 then v.z * -1 else v.z⟩
  else if v.y > 0.1 then
    ⟨if R.a10 + R.a01 < 0 then v.x * -1 else v.x, v.y, if R.a12 + R.a21 < 0 then v.z * -1 else v.z⟩
  else
    ⟨if R.a20 + R.a02 < 0 then v.x * -1 else v.x, if R.a21 + R.a12 < 0 then v.y * -1 else v.y, v.z⟩

/-- `mrcal_r_from_R_full` poseutils.c:1139-1356: the value -/
noncomputable def r_from_R (R : M3) : P3 :=
  let tr := R.a00 + R.a11 + R.a22
  let u : P3 := ⟨R.a21 - R.a12, R.a02 - R.a20, R.a10 - R.a01⟩
  let costh := (tr - 1) / 2
  let norm2u := u.x * u.x + u.y * u.y + u.z * u.z
  if norm2u > 4 * rEps * rEps ∧ 1 - |costh| > rEps * rEps / 2 then
    let sinth := Real.sqrt norm2u / 2
    let th := if sinth > Real.sqrt 2 / 2 then Real.arccos costh
              else if costh > 0 then Real.arcsin sinth
              else Real.pi - Real.arcsin sinth
    ⟨u.x / Real.sqrt norm2u * th, u.y / Real.sqrt norm2u * th, u.z / Real.sqrt norm2u * th⟩
  else if costh > 0 then ⟨u.x / 2, u.y / 2, u.z / 2⟩
  else
    let v := r_from_R_axis180 R
    ⟨u.x / -2 + v.x * Real.pi, u.y / -2 + v.y * Real.pi, u.z / -2 + v.z * Real.pi⟩

/-- `mrcal_Rt_from_rt_full` poseutils.c:490-516 -/
noncomputable def Rt_from_rt (T : RtV) : Rt := ⟨R_from_r T.r, T.t⟩
/-- `mrcal_rt_from_Rt_full` poseutils.c:461-486 -/
noncomputable def rt_from_Rt (T : Rt) : RtV := ⟨r_from_R T.R, T.t⟩

/-- `mrcal_R_aligned_to_vector` poseutils.c:1639-1687 -/
noncomputable def R_aligned_to_vector (v : P3) : M3 :=
  let magv := Real.sqrt (v.x * v.x + v.y * v.y + v.z * v.z)
  let z : P3 := ⟨v.x / magv, v.y / magv, v.z / magv⟩
  let x1 : P3 := if |z.x| < 0.9 then ⟨1 - z.x * z.x, 0 - z.x * z.y, 0 - z.x * z.z⟩
                 else ⟨0 - z.y * z.x, 1 - z.y * z.y, 0 - z.y * z.z⟩
  let magx := Real.sqrt (x1.x * x1.x + x1.y * x1.y + x1.z * x1.z)
  let x : P3 := ⟨x1.x / magx, x1.y / magx, x1.z / magx⟩
  let y : P3 := ⟨z.y * x.z - z.z * x.y, z.z * x.x - z.x * x.z, z.x * x.y - z.y * x.x⟩
  ⟨x.x, x.y, x.z, y.x, y.y, y.z, z.x, z.y, z.z⟩

end Pose
end Mrcal
