import Verif.Model.Propagate
import Mathlib.LinearAlgebra.Matrix.NonsingularInverse
import Mathlib.Analysis.SpecialFunctions.Complex.Arg
/-
sorted_eig(), _plot_arg_covariance_ellipse(), _plot_args_points_and_covariance_ellipse(): /repo/mrcal/utils.py:1213-1285; the uncertainties in mrcal-triangulate:455-467, 756-766; and _Jt_x(): /repo/mrcal-genpywrap.py:640-718.

np.linalg.eig() and np.argsort() are given. Arithmetic is exact: `double` is ℝ; complex eigenvalues aren't modelled. Broadcasting isn't modelled: this is one matrix.
-/
namespace Mrcal.SortedEig

open Mrcal

abbrev Mat (n : Nat) := Matrix (Fin n) (Fin n) ℝ

/-- what is called -/
structure Lib (n : Nat) where
  /-- np.linalg.eig(): the eigenvalues, and the eigenvectors in the columns -/
  eig : Mat n → (Fin n → ℝ) × Mat n
  /-- np.argsort() -/
  argsort : (Fin n → ℝ) → Fin n → Fin n

variable {n : Nat}

/-- sorted_eig() utils.py:1244-1252 -/
def sortedEig (L : Lib n) (M : Mat n) : (Fin n → ℝ) × Mat n :=
  let l := (L.eig M).1
  let v := (L.eig M).2
  let i := L.argsort l
  (fun k => l (i k), fun r k => v r (i k))

/-- the arguments of an ellipse in gnuplot: the center, two diameters, the angle in degrees -/
structure Ellipse where
  x : ℝ
  y : ℝ
  d0 : ℝ
  d1 : ℝ
  angle : ℝ

open Classical in
/-- _plot_arg_covariance_ellipse() utils.py:1256-1273. `np.max(np.abs(Var)) == 0` is `Var = 0`. np.arctan2(y,x) is the argument of x+iy -/
noncomputable def ellipseArg (L : Lib 2) (x y : ℝ) (Var : Mat 2) : Option Ellipse :=
  if Var = 0 then none
  else
    let e := sortedEig L Var
    some ⟨x, y, 2 * Real.sqrt (e.1 0), 2 * Real.sqrt (e.1 1), 180 / Real.pi * Complex.arg ⟨e.2 0 0, e.2 1 0⟩⟩

noncomputable def mean (l : List ℝ) : ℝ := l.sum / l.length

/-- _plot_args_points_and_covariance_ellipse() utils.py:1277-1279: the mean, the variance -/
noncomputable def pointsVar (q : List (Fin 2 → ℝ)) : (Fin 2 → ℝ) × Mat 2 :=
  let m : Fin 2 → ℝ := fun k => mean (q.map fun p => p k)
  (m, fun r k => mean (q.map fun p => (p r - m r) * (p k - m k)))

/-- utils.py:1276-1285: the ellipse -/
noncomputable def pointsEllipse (L : Lib 2) (q : List (Fin 2 → ℝ)) : Option Ellipse :=
  ellipseArg L ((pointsVar q).1 0) ((pointsVar q).1 1) (pointsVar q).2

/-- mrcal-triangulate:761-764: the largest standard deviation, and its direction -/
noncomputable def worst (L : Lib 3) (Var : Mat 3) : ℝ × (Fin 3 → ℝ) :=
  let e := sortedEig L Var
  (Real.sqrt (e.1 2), fun r => e.2 r 2)

/-- mrcal-triangulate:461-463: the variance in the plane of the plot. `R`: R_uv_cam0 -/
noncomputable def planeVar (R : Matrix (Fin 2) (Fin 3) ℝ) (Var : Mat 3) : Mat 2 := R * Var * R.transpose

/-! ### _Jt_x -/



/-- `_Jt_x` mrcal-genpywrap.py:674-716. `Np`: the length of Jp, `x`: the vector xt. `none`: an error. The output has Ny elements; those at other indices would be out-of-bounds writes -/
noncomputable def JtX (Np : Nat) (J : Mrcal.Propagate.Csr) (x : List ℝ) : Option (Int → ℝ) :=
  if (x.length : Int) ≠ (Np : Int) - 1 then none
  else some ((List.range x.length).foldl (fun (y : Int → ℝ) irow =>
    (List.range (J.Jp (irow + 1) - J.Jp irow).toNat).foldl (fun (y : Int → ℝ) (k : Nat) =>
      let i := J.Jp irow + k
      fun icol => if icol = J.Ji i then y icol + J.Jx i * x.getD irow 0 else y icol) y) fun _ => 0)

end Mrcal.SortedEig
