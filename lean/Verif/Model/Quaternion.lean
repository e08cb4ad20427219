import Verif.Model.Pose
/-
Quaternions: mrcal/_poseutils_scipy.py, `R_from_quat` in poseutils-genpywrap.py, and `qt_from_Rt`, `Rt_from_qt` in mrcal/poseutils.py. Arithmetic is exact: `double` is ℝ. One broadcasted slice is
modelled: the shapes, the broadcasting, and the arrays given in `out` aren't. The check at _poseutils_scipy.py:110-119 that the reshaped `out` is a view isn't modelled.
-/
namespace Mrcal.Quaternion
open Mrcal.Pose

/-- a (4,) array: (u,i,j,k) -/
@[ext] structure Quat where
  u : ℝ
  i : ℝ
  j : ℝ
  k : ℝ

/-- a (7,) array: the quaternion, and then t -/
@[ext] structure Qt where
  q : Quat
  t : P3

/-- `R_from_quat` poseutils-genpywrap.py:1061-1095 -/
def R_from_quat (q : Quat) : M3 :=
  let r := q.u
  let i := q.i
  let j := q.j
  let k := q.k
  let ii := i * i
  let ij := i * j
  let ik := i * k
  let ir := i * r
  let jj := j * j
  let jk := j * k
  let jr := j * r
  let kk := k * k
  let kr := k * r
  { a00 := 1 - 2 * (jj + kk), a01 := 2 * (ij - kr), a02 := 2 * (ik + jr)
    a10 := 2 * (ij + kr), a11 := 1 - 2 * (ii + kk), a12 := 2 * (jk - ir)
    a20 := 2 * (ik - jr), a21 := 2 * (jk + ir), a22 := 1 - 2 * (ii + jj) }

/-- the element at (row, col) of the matrix; indices are 0,1,2 -/
def elem (R : M3) : Nat → Nat → ℝ
  | 0, 0 => R.a00 | 0, 1 => R.a01 | 0, _ => R.a02
  | 1, 0 => R.a10 | 1, 1 => R.a11 | 1, _ => R.a12
  | _, 0 => R.a20 | _, 1 => R.a21 | _, _ => R.a22

/-- assigning one element of the (4,) array -/
def Quat.set (q : Quat) (n : Nat) (x : ℝ) : Quat :=
  match n with
  | 0 => { q with u := x }
  | 1 => { q with i := x }
  | 2 => { q with j := x }
  | _ => { q with k := x }

open Classical in
/-- `decision_matrix.argmax(axis=1)` _poseutils_scipy.py:104-107: the index of the first maximum of (R00, R11, R22, trace) -/
noncomputable def choice (R : M3) : Nat :=
  let d0 := R.a00
  let d1 := R.a11
  let d2 := R.a22
  let d3 := d0 + d1 + d2
  if d1 ≤ d0 ∧ d2 ≤ d0 ∧ d3 ≤ d0 then 0
  else if d2 ≤ d1 ∧ d3 ≤ d1 then 1
  else if d3 ≤ d2 then 2
  else 3

/-- _poseutils_scipy.py:121-135: the quaternion, before the normalization. The array starts out uninitialized (`np.empty`); all the elements are then written -/
noncomputable def unnormalized (R : M3) (uninitialized : Quat) : Quat :=
  let trace := R.a00 + R.a11 + R.a22
  let c := choice R
  if c ≠ 3 then
    let i := c
    let j := (i + 1) % 3
    let k := (j + 1) % 3
    (((uninitialized.set (i + 1) (1 - trace + 2 * elem R i i)).set (j + 1) (elem R j i + elem R i j)).set (k + 1) (elem R k i + elem R i k)).set 0
      (elem R k j - elem R j k)
  else
    (((uninitialized.set 1 (elem R 2 1 - elem R 1 2)).set 2 (elem R 0 2 - elem R 2 0)).set 3 (elem R 1 0 - elem R 0 1)).set 0 (1 + trace)

/-- the norm: `np.linalg.norm` -/
noncomputable def norm (q : Quat) : ℝ := Real.sqrt (q.u * q.u + q.i * q.i + q.j * q.j + q.k * q.k)

open Classical in
/-- `quat_from_R` _poseutils_scipy.py:94-139. `none`: dividing by 0 produces NaN -/
noncomputable def quat_from_R (R : M3) (uninitialized : Quat) : Option Quat :=
  let q := unnormalized R uninitialized
  let n := norm q
  if n = 0 then none else some ⟨q.u / n, q.i / n, q.j / n, q.k / n⟩

/-- `qt_from_Rt` poseutils.py:1538-1545 -/
noncomputable def qt_from_Rt (T : Rt) (uninitialized : Quat) : Option Qt :=
  (quat_from_R T.R uninitialized).map fun q => ⟨q, T.t⟩

/-- `Rt_from_qt` poseutils.py:1601-1608 -/
def Rt_from_qt (qt : Qt) : Rt := ⟨R_from_quat qt.q, qt.t⟩

end Mrcal.Quaternion
