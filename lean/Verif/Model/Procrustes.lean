import Mathlib.LinearAlgebra.Matrix.NonsingularInverse
import Mathlib.Data.Matrix.Mul
import Mathlib.Data.Real.Basic
import Mathlib.Tactic.NormNum
/-
Aligning two sets of points or of vectors: poseutils.c:1439-1645, the wrapper in poseutils-genpywrap.py:1160-1225, and mrcal/utils.py:26-265. Arithmetic is exact: `double` is ℝ.
The singular value decomposition is an argument: LAPACK's dgesdd() in C, np.linalg.svd() in Python.
-/
namespace Mrcal.Procrustes

abbrev Mat := Matrix (Fin 3) (Fin 3) ℝ
abbrev Vec := Fin 3 → ℝ

/-- dgesdd("A", 3, 3, a, 3, s, u, 3, vt, 3, …) as used here: the arguments are the buffers a; s; u; vt. Each 3x3 buffer is given as the row-first matrix in it; LAPACK itself sees the
transpose of this. none: `info != 0` -/
abbrev Lapack := Mat → Option (Mat × Vec × Mat)

/-- The outcome: `fatal` is `R01[0] = 1; return false;`, `singular` is `R01[0] = 0; return false;` -/
inductive Res (α : Type) where
  | fatal
  | singular
  | ok (r : α)

/-- `M` poseutils.c:1478-1499. The accumulating loop is a sum. `weights` is none if NULL -/
noncomputable def outerSum (N : Nat) (p0 p1 : Nat → Vec) (pmean0 pmean1 : Vec) (weights : Option (Nat → ℝ)) : Mat := fun j k =>
  match weights with
  | none => ∑ i ∈ Finset.range N, (p0 i j - pmean0 j) * (p1 i k - pmean1 k)
  | some w => ∑ i ∈ Finset.range N, (p0 i j - pmean0 j) * (p1 i k - pmean1 k) * w i

/-- `det_R` poseutils.c:1571-1574 -/
def detR (R : Mat) : ℝ :=
  R 0 0 * (R 1 1 * R 2 2 - R 1 2 * R 2 1) - R 0 1 * (R 1 0 * R 2 2 - R 1 2 * R 2 0) + R 0 2 * (R 1 0 * R 2 1 - R 1 1 * R 2 0)

/-- `_align_procrustes_vectors_R01()` poseutils.c:1463-1592; pmean0, pmean1 are 0 if NULL. The buffer `Vt` is given to LAPACK for its u, and the buffer `U` for its vt -/
noncomputable def alignVectors (lapack : Lapack) (N : Nat) (p0 p1 : Nat → Vec) (pmean0 pmean1 : Vec) (weights : Option (Nat → ℝ)) : Res Mat :=
  match lapack (outerSum N p0 p1 pmean0 pmean1 weights) with
  | none => .fatal
  | some (Vt, S, U) =>
    if S 1 < 1e-12 then .singular
    else
      let R : Mat := fun i j => U i 0 * Vt 0 j + U i 1 * Vt 1 j + U i 2 * Vt 2 j
      if detR R < 0 then .ok fun i j => U i 0 * Vt 0 j + U i 1 * Vt 1 j - U i 2 * Vt 2 j
      else .ok R

/-- `mrcal_align_procrustes_vectors_R01()` poseutils.c:1594-1607 -/
noncomputable def alignVectorsR01 (lapack : Lapack) (N : Nat) (v0 v1 : Nat → Vec) (weights : Option (Nat → ℝ)) : Res Mat :=
  alignVectors lapack N v0 v1 0 0 weights

/-- `pmean0` poseutils.c:1619-1634 -/
noncomputable def mean (N : Nat) (p : Nat → Vec) : Vec := fun j => (∑ i ∈ Finset.range N, p i j) / (N : ℝ)

/-- `mrcal_align_procrustes_points_Rt01()` poseutils.c:1609-1645 -/
noncomputable def alignPointsRt01 (lapack : Lapack) (N : Nat) (p0 p1 : Nat → Vec) (weights : Option (Nat → ℝ)) : Res (Mat × Vec) :=
  let pmean0 := mean N p0
  let pmean1 := mean N p1
  match alignVectors lapack N p0 p1 pmean0 pmean1 weights with
  | .fatal => .fatal
  | .singular => .singular
  | .ok R => .ok (R, fun i => pmean0 i - R i 0 * pmean1 0 - R i 1 * pmean1 1 - R i 2 * pmean1 2)

/-! ### Python -/

/-- np.linalg.svd(): V,S,Ut with M = V S Ut. It raises an exception if it doesn't converge: none -/
abbrev NumpySvd := Mat → Option (Mat × Vec × Mat)

/-- What the Python functions return: an exception, or an array -/
inductive PyRes (α : Type) where
  | exception
  | array (a : α)

/-- the common part of utils.py:54-68 and utils.py:101-117. np.linalg.det() is exact here. none: the error value -/
noncomputable def svdRotation (svd : NumpySvd) (Mt : Mat) : PyRes (Option Mat) :=
  match svd Mt with
  | none => .exception
  | some (V, S, Ut) =>
    if S 1 < 1e-12 then .array none
    else
      let R := V * Ut
      if R.det < 0 then
        let V' : Mat := fun i j => if j = 2 then V i j * (-1) else V i j
        .array (some (V' * Ut))
      else .array (some R)

/-- `_align_procrustes_vectors_R01_python()` utils.py:77-118: one slice. The error value is all 0 -/
noncomputable def alignVectorsPython (svd : NumpySvd) (N : Nat) (v0 v1 : Nat → Vec) (weights : Option (Nat → ℝ)) : PyRes Mat :=
  let w := weights.getD fun _ => 1
  match svdRotation svd (fun j k => ∑ i ∈ Finset.range N, v0 i j * w i * v1 i k) with
  | .exception => .exception
  | .array none => .array 0
  | .array (some R) => .array R

/-- `_align_procrustes_points_Rt01_python()` utils.py:26-74: one slice -/
noncomputable def alignPointsPython (svd : NumpySvd) (N : Nat) (p0 p1 : Nat → Vec) (weights : Option (Nat → ℝ)) : PyRes (Mat × Vec) :=
  let w := weights.getD fun _ => 1
  match svdRotation svd (fun j k => ∑ i ∈ Finset.range N, (p0 i j - mean N p0 j) * w i * (p1 i k - mean N p1 k)) with
  | .exception => .exception
  | .array none => .array (0, 0)
  | .array (some R) => .array (R, mean N p0 - R.mulVec (mean N p1))

/-- the wrapper of the C function in poseutils-genpywrap.py:1202-1222: singular problems produce all 0 -/
noncomputable def wrapC {α : Type} [Zero α] (r : Res α) : PyRes α :=
  match r with
  | .fatal => .exception
  | .singular => .array 0
  | .ok a => .array a

/-- `align_procrustes_vectors_R01()` utils.py:193-265 -/
noncomputable def alignVectorsApi (lapack : Lapack) (svd : NumpySvd) (contiguous : Bool) (N : Nat) (v0 v1 : Nat → Vec) (weights : Option (Nat → ℝ)) : PyRes Mat :=
  if !contiguous then alignVectorsPython svd N v0 v1 weights else wrapC (alignVectorsR01 lapack N v0 v1 weights)

/-- `align_procrustes_points_Rt01()` utils.py:121-191 -/
noncomputable def alignPointsApi (lapack : Lapack) (svd : NumpySvd) (contiguous : Bool) (N : Nat) (p0 p1 : Nat → Vec) (weights : Option (Nat → ℝ)) : PyRes (Mat × Vec) :=
  if !contiguous then alignPointsPython svd N p0 p1 weights else wrapC (alignPointsRt01 lapack N p0 p1 weights)

end Mrcal.Procrustes
