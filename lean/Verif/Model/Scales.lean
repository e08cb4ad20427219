import Mathlib.Analysis.Real.Pi.Bounds
/-
scales.h: the constants relating the packed (unit-scale) state to the real one.
-/
namespace Mrcal

/-- scales.h `SCALE_INTRINSICS_FOCAL_LENGTH` -/
noncomputable def scaleFocal : ℝ := 500
/-- scales.h `SCALE_INTRINSICS_CENTER_PIXEL` -/
noncomputable def scaleCenter : ℝ := 20
/-- scales.h `SCALE_ROTATION_CAMERA` -/
noncomputable def scaleRotCamera : ℝ := 0.1 * Real.pi / 180
/-- scales.h `SCALE_TRANSLATION_CAMERA` -/
noncomputable def scaleTransCamera : ℝ := 1
/-- scales.h `SCALE_ROTATION_FRAME` -/
noncomputable def scaleRotFrame : ℝ := 15 * Real.pi / 180
/-- scales.h `SCALE_TRANSLATION_FRAME` -/
noncomputable def scaleTransFrame : ℝ := 1
/-- scales.h `SCALE_POSITION_POINT` -/
noncomputable def scalePoint : ℝ := scaleTransFrame
/-- scales.h `SCALE_CALOBJECT_WARP` -/
noncomputable def scaleWarp : ℝ := 0.01
/-- scales.h `SCALE_DISTORTION` -/
noncomputable def scaleDistortion : ℝ := 1

end Mrcal
