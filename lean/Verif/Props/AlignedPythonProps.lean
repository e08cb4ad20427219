import Verif.Model.AlignedPython
import Verif.Props.PoseProps
import Mathlib.Tactic.Ring
/-
C136: the two implementations of R_aligned_to_vector() agree
-/
namespace Mrcal.AlignedPython
open Mrcal Mrcal.Cam Mrcal.Pose

/-- C136: "The two implementations are identical" -/
theorem same (v : P3) (_h : v ≠ ⟨0, 0, 0⟩) : aligned v = R_aligned_to_vector v := by
  unfold aligned R_aligned_to_vector divBy minus mag cross inner
  dsimp only
  generalize hm : Real.sqrt (v.x * v.x + v.y * v.y + v.z * v.z) = m
  by_cases h : |v.x / m| < 0.9
  · simp only [h, if_true, one_mul, zero_mul, add_zero]
  · simp only [h, if_false, one_mul, zero_mul, add_zero, zero_add]

/-- C136: so this is a rotation too, that maps the vector to z -/
theorem rotation (v : P3) (hv : v ≠ ⟨0, 0, 0⟩) : IsRot (aligned v) ∧ mulVec (aligned v) v = ⟨0, 0, Real.sqrt (v.x ^ 2 + v.y ^ 2 + v.z ^ 2)⟩ := by
  rw [same v hv]
  exact aligned_rotation v hv

/-- the vector that's along the x axis isn't special -/
example : mulVec (aligned ⟨2, 0, 0⟩) ⟨2, 0, 0⟩ = ⟨0, 0, Real.sqrt (2 ^ 2 + 0 ^ 2 + 0 ^ 2)⟩ := (rotation ⟨2, 0, 0⟩ (by simp)).2

end Mrcal.AlignedPython
