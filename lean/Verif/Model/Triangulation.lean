import Verif.Model.Autodiff
import Verif.Model.Pose
/-
The triangulation routines: triangulation.cc. Arithmetic is exact: `double` is ℝ. All the routines are templates
evaluated with the automatic differentiation of _autodiff.hh, so everything here is built from `AD.Val`, `AD.Vec3`.

A routine that fails returns the point (0,0,0) and writes no gradients. Here that is `none`; `TriOut.point` is the
point the caller sees.
-/
namespace Mrcal.Tri
open Mrcal.AD

variable {N : Nat}

/-- `operator/(double)` of a vector _autodiff.hh:486-493 -/
noncomputable def divVecC (a : Vec3 N) (k : ℝ) : Vec3 N := ⟨a.x.divC k, a.y.divC k, a.z.divC k⟩
/-- `cross_norm2` _autodiff.hh:565-573 -/
def crossNorm2 (a b : Vec3 N) : Val N := (a.cross b).norm2
/-- `cross_mag` _autodiff.hh:575-583 -/
noncomputable def crossMag (a b : Vec3 N) : Val N := (a.cross b).mag

/-- `triangulate_assume_intersect` triangulation.cc:16-101, the part common to the xz and yz cases: 55-68, 82-91.
`a` is the first axis. The `^` of two booleans is `≠`. -/
noncomputable def intersectAxis (a0 a1 at_ z0 z1 zt : Val N) : Option (Val N) :=
  let det := (a1.mul z0).sub (a0.mul z1)
  let k0 := ((zt.mul a1).sub (at_.mul z1)).div det
  if k0.x ≤ 0 then none
  else if ¬ ((zt.x * a0.x > at_.x * z0.x) ↔ (det.x > 0)) then none
  else some k0

/-- `triangulate_assume_intersect` triangulation.cc:16-101 -/
noncomputable def assumeIntersect (v0 v1 t01 : Vec3 N) : Option (Vec3 N) :=
  let detXZ := |(-v0.x.x) * v1.z.x + v0.z.x * v1.x.x|
  let detYZ := |(-v0.y.x) * v1.z.x + v0.z.x * v1.y.x|
  let k0 :=
    if detXZ > detYZ then
      if detXZ ≤ 1e-10 then none else intersectAxis v0.x v1.x t01.x v0.z v1.z t01.z
    else
      if detYZ ≤ 1e-10 then none else intersectAxis v0.y v1.y t01.y v0.z v1.z t01.z
  k0.map fun k => v0.mulV k

/-- `mrcal_triangulate_geometric` triangulation.cc:109-186, on vectors that carry gradients -/
noncomputable def geometric (v0 v1 t01 : Vec3 N) : Option (Vec3 N) :=
  let dot_v0v0 := v0.norm2
  let dot_v1v1 := v1.norm2
  let dot_v0v1 := v0.dot v1
  let dot_v0t := v0.dot t01
  let dot_v1t := v1.dot t01
  let denom := (dot_v0v0.mul dot_v1v1).sub (dot_v0v1.mul dot_v0v1)
  if -1e-10 ≤ denom.x ∧ denom.x ≤ 1e-10 then none else
  let denom_recip := (Val.ofR 1).div denom
  let k0 := denom_recip.mul ((dot_v1v1.mul dot_v0t).sub (dot_v0v1.mul dot_v1t))
  if k0.x ≤ 0 then none else
  let k1 := denom_recip.mul ((dot_v0v1.mul dot_v0t).sub (dot_v0v0.mul dot_v1t))
  if k1.x ≤ 0 then none else
  some ((((v0.mulV k0).add (v1.mulV k1)).add t01).mulC 0.5)

/-- the correction `v -= n * v.dot(n)/n.norm2()` triangulation.cc:480,486,545,546 -/
noncomputable def projectOut (v n : Vec3 N) : Vec3 N := v.sub ((n.mulV (v.dot n)).divV n.norm2)

/-- the corrected observation vectors of `mrcal_triangulate_leecivera_l1` triangulation.cc:458-487 -/
noncomputable def l1Correct (v0 v1 t01 : Vec3 N) : Vec3 N × Vec3 N :=
  let dot_v0v0 := v0.norm2
  let dot_v1v1 := v1.norm2
  let dot_v0t := v0.dot t01
  let dot_v1t := v1.dot t01
  if dot_v0t.x * dot_v0t.x * dot_v1v1.x > dot_v1t.x * dot_v1t.x * dot_v0v0.x then
    (projectOut v0 (v1.cross t01), v1)
  else
    (v0, projectOut v1 (v0.cross t01))

/-- `mrcal_triangulate_leecivera_l1` triangulation.cc:439-510 -/
noncomputable def leeciveraL1 (v0 v1 t01 : Vec3 N) : Option (Vec3 N) :=
  let c := l1Correct v0 v1 t01
  assumeIntersect c.1 c.2 t01

/-- the corrected observation vectors of `mrcal_triangulate_leecivera_linf` triangulation.cc:533-546 -/
noncomputable def linfCorrect (v0 v1 t01 : Vec3 N) : Vec3 N × Vec3 N :=
  let v0 := v0.divV v0.mag
  let v1 := v1.divV v1.mag
  let na := (v0.add v1).cross t01
  let nb := (v0.sub v1).cross t01
  let n := if na.norm2.x > nb.norm2.x then na else nb
  (projectOut v0 n, projectOut v1 n)

/-- `mrcal_triangulate_leecivera_linf` triangulation.cc:515-573 -/
noncomputable def leeciveraLinf (v0 v1 t01 : Vec3 N) : Option (Vec3 N) :=
  let c := linfCorrect v0 v1 t01
  assumeIntersect c.1 c.2 t01

/-- one element of the loop in `chirality` triangulation.cc:608-620: the increments of worsening0, worsening1, worsening01 -/
def chiralityTerm (l0 v0i l1 v1i ti : Val N) : Val N × Val N × Val N :=
  let x_nominal := ((l1.mul v1i).add ti).sub (l0.mul v0i)
  let x0 := ((l1.mul v1i).add ti).add (l0.mul v0i)
  let x1 := ((l1.neg.mul v1i).add ti).sub (l0.mul v0i)
  let x01 := ((l1.neg.mul v1i).add ti).add (l0.mul v0i)
  ((x0.mul x0).sub (x_nominal.mul x_nominal), (x1.mul x1).sub (x_nominal.mul x_nominal),
   (x01.mul x01).sub (x_nominal.mul x_nominal))

/-- the three worsening values of `chirality` triangulation.cc:578-620 -/
def worsening (l0 : Val N) (v0 : Vec3 N) (l1 : Val N) (v1 t01 : Vec3 N) : Val N × Val N × Val N :=
  let a := chiralityTerm l0 v0.x l1 v1.x t01.x
  let b := chiralityTerm l0 v0.y l1 v1.y t01.y
  let c := chiralityTerm l0 v0.z l1 v1.z t01.z
  ((((Val.ofR 0).add a.1).add b.1).add c.1, (((Val.ofR 0).add a.2.1).add b.2.1).add c.2.1,
   (((Val.ofR 0).add a.2.2).add b.2.2).add c.2.2)

/-- the result of `chirality` triangulation.cc:622-627 -/
def chirality (l0 : Val N) (v0 : Vec3 N) (l1 : Val N) (v1 t01 : Vec3 N) : Prop :=
  let w := worsening l0 v0 l1 v1 t01
  w.1.x > 0 ∧ w.2.1.x > 0 ∧ w.2.2.x > 0

/-- the ranges l0, l1 of the mid2 method triangulation.cc:662-665, and again 999-1002 -/
noncomputable def mid2Ranges (v0 v1 t01 : Vec3 N) : Val N × Val N :=
  let p_norm2_recip := (Val.ofR 1.0).div (crossNorm2 v0 v1)
  (((crossNorm2 v1 t01).mul p_norm2_recip).sqrt, ((crossNorm2 v0 t01).mul p_norm2_recip).sqrt)

/-- the midpoint of the mid2 method triangulation.cc:670, and again 1004 -/
noncomputable def mid2Point (l0 : Val N) (v0 : Vec3 N) (l1 : Val N) (v1 t01 : Vec3 N) : Vec3 N :=
  divVecC (((v0.mulV l0).add t01).add (v1.mulV l1)) 2.0

open Classical in
/-- `mrcal_triangulate_leecivera_mid2` triangulation.cc:640-689 -/
noncomputable def leeciveraMid2 (v0 v1 t01 : Vec3 N) : Option (Vec3 N) :=
  let l := mid2Ranges v0 v1 t01
  if ¬ chirality l.1 v0 l.2 v1 t01 then none
  else some (mid2Point l.1 v0 l.2 v1 t01)

open Classical in
/-- `mrcal_triangulate_leecivera_wmid2` triangulation.cc:708-764 -/
noncomputable def leeciveraWmid2 (v0 v1 t01 : Vec3 N) : Option (Vec3 N) :=
  let v0 := v0.divV v0.mag
  let v1 := v1.divV v1.mag
  let p_mag_recip := (Val.ofR 1.0).div (crossMag v0 v1)
  let l0 := (crossMag v1 t01).mul p_mag_recip
  let l1 := (crossMag v0 t01).mul p_mag_recip
  if ¬ chirality l0 v0 l1 v1 t01 then none
  else some (((((v0.mulV l0).mulV l1).add (t01.mulV l0)).add ((v1.mulV l0).mulV l1)).divV (l0.add l1))

/-- the point the caller gets: (0,0,0) on failure, `return (mrcal_point3_t){0}` -/
def point (o : Option (Vec3 N)) : P3 := match o with
  | none => ⟨0, 0, 0⟩
  | some m => m.value

/-- the gradients the caller gets, if all three are requested: `extract_grad` of the gradient variables
0..2 (v0), 3..5 (v1), 6..8 (t01): triangulation.cc:173-186, 495-508, 557-570, 674-687, 749-762. On failure nothing is written. -/
def gradients (o : Option (Vec3 9)) : Option ((P3 × P3 × P3) × (P3 × P3 × P3) × (P3 × P3 × P3)) :=
  o.map fun m => (m.grad 0 (by omega), m.grad 3 (by omega), m.grad 6 (by omega))

/-- the seeding shared by all of the v0,v1,t01 routines. triangulation.cc:153-155, 460-462, 537-539, 658-660, 730-732 -/
def seeded (F : Vec3 9 → Vec3 9 → Vec3 9 → Option (Vec3 9)) (v0 v1 t01 : P3) : Option (Vec3 9) :=
  F (Vec3.init v0 (some 0)) (Vec3.init v1 (some 3)) (Vec3.init t01 (some 6))

/-- `_mrcal_triangulate_leecivera_mid2_is_convergent` triangulation.cc:691-706 -/
def isConvergent (v0 v1 t01 : P3) : Prop :=
  let p := point (seeded leeciveraMid2 v0 v1 t01)
  ¬ (p.x = 0 ∧ p.y = 0 ∧ p.z = 0)

/-! ### the Lindstrom method -/

/-- `vec_withgrad_t<18,9>`: a matrix with gradients, row-first -/
structure Mat3 (N : Nat) where
  r0 : Vec3 N
  r1 : Vec3 N
  r2 : Vec3 N

/-- a row of `vec_withgrad_t<18,9> R01(_Rt01->xyz, 6)`: seeding of 9 values. triangulation.cc:285 -/
def Mat3.init (R : M3) (g : Nat) : Mat3 N :=
  ⟨Vec3.init ⟨R.a00, R.a01, R.a02⟩ (some g), Vec3.init ⟨R.a10, R.a11, R.a12⟩ (some (g + 3)),
   Vec3.init ⟨R.a20, R.a21, R.a22⟩ (some (g + 6))⟩

/-- the essential matrix triangulation.cc:288-298 -/
def lindE (R : Mat3 N) (t : Vec3 N) : Mat3 N :=
  { r0 := ⟨(R.r2.x.mul t.y).sub (R.r1.x.mul t.z), (R.r2.y.mul t.y).sub (R.r1.y.mul t.z), (R.r2.z.mul t.y).sub (R.r1.z.mul t.z)⟩
    r1 := ⟨(R.r0.x.mul t.z).sub (R.r2.x.mul t.x), (R.r0.y.mul t.z).sub (R.r2.y.mul t.x), (R.r0.z.mul t.z).sub (R.r2.z.mul t.x)⟩
    r2 := ⟨(R.r1.x.mul t.x).sub (R.r0.x.mul t.y), (R.r1.y.mul t.x).sub (R.r0.y.mul t.y), (R.r1.z.mul t.x).sub (R.r0.z.mul t.y)⟩ }

/-- the corrected observations triangulation.cc:300-388: steps 1 to 16. Inputs are the essential matrix and the two
observation vectors in their local coordinates -/
noncomputable def lindCorrect (E : Mat3 N) (v0 v1 : Vec3 N) : Vec3 N × Vec3 N :=
  let x00 := v0.x.div v0.z
  let x01 := v0.y.div v0.z
  let x10 := v1.x.div v1.z
  let x11 := v1.y.div v1.z
  -- step 1
  let n0 := ((E.r0.x.mul x10).add (E.r0.y.mul x11)).add E.r0.z
  let n1 := ((E.r1.x.mul x10).add (E.r1.y.mul x11)).add E.r1.z
  -- step 2
  let nn0 := ((E.r0.x.mul x00).add (E.r1.x.mul x01)).add E.r2.x
  let nn1 := ((E.r0.y.mul x00).add (E.r1.y.mul x01)).add E.r2.y
  -- step 3
  let a := ((((n0.mul E.r0.x).mul nn0).add ((n0.mul E.r0.y).mul nn1)).add ((n1.mul E.r1.x).mul nn0)).add ((n1.mul E.r1.y).mul nn1)
  -- step 4
  let b := ((((n0.mul n0).add (n1.mul n1)).add (nn0.mul nn0)).add (nn1.mul nn1)).mulC 0.5
  -- step 5
  let n_2 := ((E.r2.x.mul x10).add (E.r2.y.mul x11)).add E.r2.z
  let c := ((n0.mul x00).add (n1.mul x01)).add n_2
  -- step 6
  let d := ((b.mul b).sub (a.mul c)).sqrt
  -- step 7
  let l := c.div (b.add d)
  -- step 8
  let dx0 := l.mul n0
  let dx1 := l.mul n1
  -- step 9
  let dxx0 := l.mul nn0
  let dxx1 := l.mul nn1
  -- step 10
  let n0' := (n0.sub (E.r0.x.mul dxx0)).sub (E.r0.y.mul dxx1)
  let n1' := (n1.sub (E.r1.x.mul dxx0)).sub (E.r1.y.mul dxx1)
  -- step 11
  let nn0' := (nn0.sub (E.r0.x.mul dx0)).sub (E.r1.x.mul dx1)
  let nn1' := (nn1.sub (E.r0.y.mul dx0)).sub (E.r1.y.mul dx1)
  -- step 12
  let bb := ((((n0'.mul n0').add (n1'.mul n1')).add (nn0'.mul nn0')).add (nn1'.mul nn1')).mulC 0.5
  let l' := (l.div d).mul bb
  -- step 13, 15
  (⟨x00.sub (l'.mul n0'), x01.sub (l'.mul n1'), Val.ofR 1.0⟩,
  -- step 14, 16
   ⟨x10.sub (l'.mul nn0'), x11.sub (l'.mul nn1'), Val.ofR 1.0⟩)

/-- the rotation of v1 to the common coordinate system triangulation.cc:401-405 -/
def matVec (R : Mat3 N) (v : Vec3 N) : Vec3 N :=
  ⟨((R.r0.x.mul v.x).add (R.r0.y.mul v.y)).add (R.r0.z.mul v.z),
   ((R.r1.x.mul v.x).add (R.r1.y.mul v.y)).add (R.r1.z.mul v.z),
   ((R.r2.x.mul v.x).add (R.r2.y.mul v.y)).add (R.r2.z.mul v.z)⟩

/-- `mrcal_triangulate_lindstrom` triangulation.cc:214-431, on values that carry gradients -/
noncomputable def lindstrom (v0 v1 : Vec3 N) (R01 : Mat3 N) (t01 : Vec3 N) : Option (Vec3 N) :=
  let c := lindCorrect (lindE R01 t01) v0 v1
  assumeIntersect c.1 (matVec R01 c.2) t01

/-- the seeding of `mrcal_triangulate_lindstrom` triangulation.cc:283-286 -/
noncomputable def lindstromSeeded (v0 v1 : P3) (Rt01 : Rt) : Option (Vec3 18) :=
  lindstrom (Vec3.init v0 (some 0)) (Vec3.init v1 (some 3)) (Mat3.init Rt01.R 6) (Vec3.init Rt01.t (some 15))

/-- the gradients of `mrcal_triangulate_lindstrom`, if all three are requested. triangulation.cc:416-429: dm_dv0 (3x3), dm_dv1 (3x3), dm_dRt01 (3x12: a row has the gradients
of the 9 elements of R, row-first, and then of t) -/
def lindGradients (o : Option (Vec3 18)) : Option ((P3 × P3 × P3) × (P3 × P3 × P3) × ((Fin 12 → ℝ) × (Fin 12 → ℝ) × (Fin 12 → ℝ))) :=
  o.map fun m => (m.grad 0 (by omega), m.grad 3 (by omega),
    (fun k => m.x.j ⟨6 + k, by omega⟩), (fun k => m.y.j ⟨6 + k, by omega⟩), (fun k => m.z.j ⟨6 + k, by omega⟩))

/-! ### the error used in the optimization -/

/-- `relu` triangulation.cc:874-893 -/
noncomputable def relu (x knee : ℝ) : ℝ :=
  if x ≤ 0 then 0
  else if knee ≤ x then x - knee / 2
  else 1 / (2 * knee) * x * x

/-- `sigmoid` triangulation.cc:895-948 -/
noncomputable def sigmoid (x : Val N) (knee : ℝ) : Val N :=
  if x.x ≤ 0 then Val.ofR 0
  else if knee ≤ x.x then Val.ofR 1
  else if x.x < knee / 2 then
    let b := 2 / knee
    let a := 2 / knee / knee
    let c := 1 / 2
    let dx := x.subC (knee / 2)
    (dx.mul ((dx.mulC a).addC b)).addC c
  else
    let b := 2 / knee
    let a := -2 / knee / knee
    let c := 1 / 2
    let dx := x.subC (knee / 2)
    (dx.mul ((dx.mulC a).addC b)).addC c

/-- `angle_error__assume_small` triangulation.cc:766-803. The check at 793-795 (th_sq < 0) is unreachable: 784 has already returned. -/
noncomputable def angleError (v0 v1 : Vec3 N) : Val N :=
  let inner00 := v0.norm2
  let inner11 := v1.norm2
  let inner01 := v0.dot v1
  let costh := inner01.div (inner00.mul inner11).sqrt
  let costh := if costh.x < 0 then costh.mul (Val.ofR (-1.0)) else costh
  let th_sq := (costh.mulC (-2)).addC 2
  if th_sq.x < 1e-21 then Val.ofR 0 else th_sq.sqrt

open Classical in
/-- `_mrcal_triangulated_error` triangulation.cc:958-1123, on vectors that carry gradients. The #if 0 code is not modelled: it
isn't compiled. -/
noncomputable def triangulatedErrorV (v0 v1 t01 : Vec3 N) : Val N :=
  let l := mid2Ranges v0 v1 t01
  let m := mid2Point l.1 v0 l.2 v1 t01
  let err := (angleError v0 m).mulC 2
  let w := worsening l.1 v0 l.2 v1 t01
  if ¬ chirality l.1 v0 l.2 v1 t01 then
    let evp := angleError v0 v1
    err.add (evp.mul (((sigmoid w.1.neg 3).add (sigmoid w.2.1.neg 3)).add (sigmoid w.2.2.neg 3)))
  else err

/-- the seeding of `_mrcal_triangulated_error` triangulation.cc:986-990: no gradient with respect to v0 -/
noncomputable def triangulatedErrorSeeded (v0 v1 t01 : P3) : Val 6 :=
  triangulatedErrorV (Vec3.init v0 none) (Vec3.init v1 (some 0)) (Vec3.init t01 (some 3))

/-- `_mrcal_triangulated_error` triangulation.cc:958-1123: the error, derr_dv1, derr_dt01 -/
noncomputable def triangulatedError (v0 v1 t01 : P3) : ℝ × P3 × P3 :=
  let e := triangulatedErrorSeeded v0 v1 t01
  (e.x, ⟨e.j 0, e.j 1, e.j 2⟩, ⟨e.j 3, e.j 4, e.j 5⟩)

end Mrcal.Tri
