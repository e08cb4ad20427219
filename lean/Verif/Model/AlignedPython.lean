import Verif.Model.Pose
/-
The reference implementation in python of the rotation that's aligned to a vector: `_R_aligned_to_vector_python()` utils.py:1559-1576
-/
namespace Mrcal.AlignedPython
open Mrcal Mrcal.Cam

/-- `nps.inner()` of 3-vectors -/
def inner (a b : P3) : ℝ := a.x * b.x + a.y * b.y + a.z * b.z
/-- `nps.mag()` of a 3-vector -/
noncomputable def mag (a : P3) : ℝ := Real.sqrt (inner a a)
/-- `np.cross()` of 3-vectors -/
def cross (a b : P3) : P3 := ⟨a.y * b.z - a.z * b.y, a.z * b.x - a.x * b.z, a.x * b.y - a.y * b.x⟩
/-- `a/s` in numpy -/
noncomputable def divBy (a : P3) (s : ℝ) : P3 := ⟨a.x / s, a.y / s, a.z / s⟩
/-- `a - s*b` in numpy -/
def minus (a : P3) (s : ℝ) (b : P3) : P3 := ⟨a.x - s * b.x, a.y - s * b.y, a.z - s * b.z⟩

/-- `_R_aligned_to_vector_python()` utils.py:1568-1576. The rows are x,y,z. For a vector of 0 the code divides by 0 -/
noncomputable def aligned (v : P3) : M3 :=
  let z := divBy v (mag v)
  let x0 : P3 := if |z.x| < 0.9 then ⟨1, 0, 0⟩ else ⟨0, 1, 0⟩
  let x1 := minus x0 (inner x0 z) z
  let x := divBy x1 (mag x1)
  let y := cross z x
  ⟨x.x, x.y, x.z, y.x, y.y, y.z, z.x, z.y, z.z⟩

end Mrcal.AlignedPython
