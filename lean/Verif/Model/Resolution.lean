import Verif.Model.UnprojectPy
import Verif.Model.Pose
/-
The angular resolution of a camera model: mrcal/model_analysis.py
-/
namespace Mrcal.Resolution
open Mrcal Mrcal.Cam Mrcal.Pose

/-- `mode`: model_analysis.py:2205-2206 -/
inductive Mode where
  | min
  | max
  | mean
  | eccentricity

/-- `M = dq_dv transpose(R)[:,:2]` model_analysis.py:2217. The columns of transpose(R) are the rows of R. This is one row of M: `g` is a row of dq_dv -/
def rowM (R : M3) (g : P3) : P2 := ⟨g.x * R.a00 + g.y * R.a01 + g.z * R.a02, g.x * R.a10 + g.y * R.a11 + g.z * R.a12⟩

/-- `lmin`, `lmax` model_analysis.py:2227-2234. `x`, `y` are the rows of M -/
noncomputable def eigenvalues (x y : P2) : ℝ × ℝ :=
  let a := x.x * x.x + y.x * y.x
  let b := x.x * x.y + y.x * y.y
  let c := x.y * x.y + y.y * y.y
  let sqrt_discriminant := Real.sqrt ((a - c) * (a - c) / 4 + b * b)
  let lmax := (a + c) / 2 + sqrt_discriminant
  let lmin := (a + c) / 2 - sqrt_discriminant
  (if lmin < 1e-6 then 1e-6 else lmin, lmax)

/-- model_analysis.py:2236-2244. Division by 0 (lmax=0: the pixel doesn't move at all) is infinity in numpy; here it's 0 -/
noncomputable def report (mode : Mode) (l : ℝ × ℝ) : ℝ :=
  let rmax := 1 / Real.sqrt l.1 * 180 / Real.pi
  let rmin := 1 / Real.sqrt l.2 * 180 / Real.pi
  match mode with
  | .min => rmin
  | .max => rmax
  | .eccentricity => rmax / rmin
  | .mean => (rmin + rmax) / 2

open Classical in
/-- `model_resolution__deg_pixel()` model_analysis.py:2152-2244 of one pixel in an array. `none`: an exception; `some none`: NaN. `prev`, `m` are the uninitialized memory of the outputs of unproject() and project(). The zero vector
(unproject() failed) cannot be aligned to: this is NaN. The gradients of project() are those of the C function, called with one point -/
noncomputable def one (L : Lens) (intr : Int → ℝ) (solve : Solver) (prev : NanP3) (m : ProjMem) (mode : Mode) (q : P2) : Option (Option ℝ) :=
  (UnprojectPy.unproject L intr solve prev true q).bind fun v =>
    match UnprojectPy.finite v with
    | none => some none
    | some v =>
      if v = ⟨0, 0, 0⟩ then some none
      else (mrcalProject L intr 1 (fun _ => v) true true m).map fun m =>
        let R := R_aligned_to_vector v
        some (report mode (eigenvalues (rowM R (m.dp 0)) (rowM R (m.dp 1))))

/-- the argument `q`: one pixel of shape (2,), or an array of pixels -/
inductive Pixels where
  | single (q : P2)
  | array (qs : List P2)

/-- `model_resolution__deg_pixel()` model_analysis.py:2152-2244. With one pixel `lmin` is a numpy scalar, and `lmin[lmin < 1e-6] = ...` model_analysis.py:2234 raises a TypeError -/
noncomputable def modelResolution (L : Lens) (intr : Int → ℝ) (solve : Solver) (prev : NanP3) (m : ProjMem) (mode : Mode) (q : Pixels) : Option (List (Option ℝ)) :=
  match q with
  | .single _ => none
  | .array qs => qs.mapM (one L intr solve prev m mode)

end Mrcal.Resolution
