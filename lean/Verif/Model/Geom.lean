import Mathlib.Analysis.Real.Sqrt
/-
The basic vectors: basic-geometry.h. Arithmetic is exact: `double` is ℝ.
-/
namespace Mrcal

/-- `mrcal_point2_t` basic-geometry.h:60-68 -/
@[ext] structure P2 where
  x : ℝ
  y : ℝ
/-- `mrcal_point3_t` basic-geometry.h:77-85 -/
@[ext] structure P3 where
  x : ℝ
  y : ℝ
  z : ℝ

end Mrcal
