import Verif.Model.Callback
import Verif.Model.Pack
import Mathlib.Analysis.Real.Sqrt
/-
Propagation of the calibration-time noise: mrcal/model_analysis.py:398-870 with the functions that it calls: _A_Jt_J_At(), _A_Jt_J_At__2() in mrcal-genpywrap.py:477-638,
CHOLMOD_factorization in mrcal-pywrap.c:110-580, measurements_board(), measurements_point() in mrcal/utils.py:1286-1560. Arithmetic is exact: `double` is ℝ.

The factorization itself (CHOLMOD) and the eigenvalues of matrices larger than (2,2) (scipy) are parameters.

Broadcasting isn't modelled: this is what happens to one (N,Nstate) slice.
-/
namespace Mrcal.Propagate
open Mrcal Mrcal.Callback Mrcal.Pack

/-- The arrays of a scipy.sparse.csr_matrix: indptr, indices, data -/
structure Csr where
  Jp : Nat → Int
  Ji : Int → Int
  Jx : Int → ℝ

/-- what mrcal.optimizer_callback() returns as J: the arrays that the C function filled, mrcal-pywrap.c:1895-1975 -/
def csrOf (o : Out) : Csr where
  Jp k := (o.rowptr.getD k 0 : Nat)
  Ji i := o.cols.getD i.toNat 0
  Jx i := o.vals.getD i.toNat 0

/-- `M[index] += value` for each element of the list, in order -/
def addEach (M : Nat → ℝ) (l : List (Nat × ℝ)) : Nat → ℝ := l.foldl (fun M p => fun n => if n = p.1 then M n + p.2 else M n) M

/-- the loop that computes jta: mrcal-genpywrap.py:543-554, 618-627. Only the first Nx elements exist in the code -/
def jtaLoop (Nstate : Int) (A : Mem) (J : Csr) (irow : Nat) : Nat → ℝ :=
  (List.range (J.Jp (irow + 1) - J.Jp irow).toNat).foldl (fun (jta : Nat → ℝ) (k : Nat) =>
    let i := J.Jp irow + k
    let icol := J.Ji i
    let x := J.Jx i
    fun j : Nat => jta j + A (icol + j * Nstate) * x) fun _ => 0

/-- `_A_Jt_J_At` mrcal-genpywrap.py:477-567. `none`: error -/
def AJtJAt (Nx : Nat) (Nstate : Int) (A : Mem) (J : Csr) (Nleading : Int) : Option (Nat → ℝ) :=
  if Nleading ≤ 0 then none
  else some ((List.range Nleading.toNat).foldl (fun out irow =>
    let jta := jtaLoop Nstate A J irow
    addEach out ((List.range Nx).flatMap fun i =>
      (i * Nx + i, jta i * jta i) :: (List.range' (i + 1) (Nx - (i + 1))).flatMap fun j =>
        [(i * Nx + j, jta i * jta j), (j * Nx + i, jta i * jta j)])) fun _ => 0)

/-- `_A_Jt_J_At__2` mrcal-genpywrap.py:569-638. `none`: error -/
def AJtJAt2 (Nstate : Int) (A : Mem) (J : Csr) (Nleading : Int) : Option (Nat → ℝ) :=
  if Nleading ≤ 0 then none
  else
    let out : Nat → ℝ := (List.range Nleading.toNat).foldl (fun out irow =>
      let jta := jtaLoop Nstate A J irow
      addEach out [(0, jta 0 * jta 0), (1, jta 0 * jta 1), (3, jta 1 * jta 1)]) fun _ => 0
    some fun n => if n = 2 then out 1 else out n

/-- the `sys` argument of cholmod_solve2() -/
inductive Sys where
  | A | LDLt | LD | DLt | L | Lt | D | P | Pt
deriving DecidableEq

/-- CHOLMOD. `factorize` is cholmod_analyze(), cholmod_factorize() and the check for a full factorization, mrcal-pywrap.c:193-212: the arguments are the number of state
variables, of measurements and J. `solve2` is cholmod_solve2() with dense arrays of `nrow` contiguous numbers for each of `ncol` columns -/
structure Cholmod where
  F : Type
  factorize : Nat → Nat → Csr → Option F
  order : F → Nat
  solve2 : F → Sys → (nrow ncol : Nat) → Mem → Option Mem

/-- `CHOLMOD_factorization_solve_xt_JtJ_bt` mrcal-pywrap.c:425-578 for a contiguous (N,Nstate) array of doubles. `none`: error, or the division by 0 with Nstate = 0.
Not modelled: parsing of the arguments -/
def solveXtJtJBt (C : Cholmod) (f : C.F) (N Nstate : Nat) (bt : Mem) (sys : Sys) : Option Mem :=
  if Nstate = 0 then none
  else
    let Nrhs := N * Nstate / Nstate
    if C.order f ≠ Nstate then none
    else if Nrhs = 0 then some bt
    else C.solve2 f sys Nstate Nrhs bt

/-- `process_slice` model_analysis.py:750-838. The result is the flat (N,N) array. `none`: exception -/
noncomputable def processSlice (C : Cholmod) (f : C.F) (J : Csr) (Nleading : Int) (N Nstate : Nat) (dF_dbpacked : Mem) : Option (Nat → ℝ) :=
  if Nleading > 0 then
    match solveXtJtJBt C f N Nstate dF_dbpacked .A with
    | none => none
    | some A => if N = 2 then AJtJAt2 Nstate A J Nleading else AJtJAt N Nstate A J Nleading
  else do
    let A1 ← solveXtJtJBt C f N Nstate dF_dbpacked .P
    let A2 ← solveXtJtJBt C f N Nstate A1 .L
    let A3 ← solveXtJtJBt C f N Nstate A2 .D
    some fun n => ∑ s ∈ Finset.range Nstate, A2 ((n / N : Nat) * Nstate + s) * A3 ((n % N : Nat) * Nstate + s)

/-- `Nmeasurements_observations_leading` model_analysis.py:716-744, if it wasn't given. `none`: exception -/
def observationsLeading (c : Ctx) : Option Int := do
  let Nboards := numMeasurementsBoards c.d.Nob c.W c.H
  let Npoints := numMeasurementsPoints c.points.length
  let Nreg := numMeasurementsRegularization c.d
  let Nall ← numMeasurements c.d c.points.length c.tri c.W c.H
  let ireg ← measurementIndexRegularization c.d c.points.length c.tri c.W c.H
  if Nboards + Npoints + Nreg ≠ Nall then none
  -- the Python wrapper returns None if the index is negative
  else if ireg ≥ 0 ∧ ireg + Nreg ≠ Nall then none
  else if Nreg = 0 then some 0
  else if Nall - Nreg = 0 then none
  else some (Nall - Nreg)

open Classical in
/-- `measurements_board()` utils.py:1286-1405. `icam`: icam_intrinsics, optional -/
noncomputable def measurementsBoard (c : Ctx) (icam : Option Int) (x : List ℝ) : List (ℝ × ℝ) :=
  let imeas0 := measurementIndexBoards 0 c.d.Nob c.W c.H
  c.boards.zipIdx.flatMap fun (o, i) => (List.range (c.W * c.H)).filterMap fun k =>
    if (∃ j, icam = some j ∧ o.icamI ≠ j) ∨ o.weight k ≤ 0 then none
    else
      let n := imeas0.toNat + (i * (c.W * c.H) + k) * 2
      some (x.getD n 0, x.getD (n + 1) 0)

open Classical in
/-- `measurements_point()` utils.py:1429-1530 -/
noncomputable def measurementsPoint (c : Ctx) (icam : Option Int) (x : List ℝ) : List (ℝ × ℝ) :=
  let imeas0 := measurementIndexPoints 0 c.d.Nob c.points.length c.W c.H
  c.points.zipIdx.filterMap fun (o, i) =>
    if (∃ j, icam = some j ∧ o.icamI ≠ j) ∨ o.weight ≤ 0 then none
    else
      let n := imeas0.toNat + i * 2
      some (x.getD n 0, x.getD (n + 1) 0)

/-- `.ravel()` -/
def ravel (l : List (ℝ × ℝ)) : List ℝ := l.flatMap fun p => [p.1, p.2]

/-- `_observed_pixel_uncertainty_from_inputs` model_analysis.py:487-556. `none`: exception, or a result that isn't finite: the number of measurements isn't larger than
the number of state variables -/
noncomputable def observedPixelUncertainty (c : Ctx) (x : List ℝ) : Option ℝ :=
  let m := ravel (measurementsBoard c none x)
  let m' := ravel (measurementsPoint c none x)
  let sumOfSquares := (if m.length ≠ 0 then (m.map fun y => y * y).sum else 0) + (if m'.length ≠ 0 then (m'.map fun y => y * y).sum else 0)
  let Nmeasurements := m.length + m'.length
  if Nmeasurements = 0 then none
  else if (Nmeasurements : Int) ≤ numStates c.d then none
  else some (Real.sqrt (sumOfSquares / Nmeasurements) / Real.sqrt (1 - (numStates c.d : ℝ) / Nmeasurements))

/-- `scipy.sparse.linalg.eigsh(V, 1, which='LM')` -/
abbrev Eigsh := (N : Nat) → (Nat → Nat → ℝ) → Option ℝ

/-- `worst_direction_stdev` model_analysis.py:398-484, of an (N,N) array. `none`: exception -/
noncomputable def worstDirectionStdev (eigsh : Eigsh) (N : Nat) (cov : Nat → Nat → ℝ) : Option ℝ :=
  if N = 1 then some (Real.sqrt (cov 0 0))
  else if N = 2 then
    let a := cov 0 0
    let b := cov 1 0
    let c := cov 1 1
    some (Real.sqrt ((a + c) / 2 + Real.sqrt ((a - c) * (a - c) / 4 + b * b)))
  else (eigsh N cov).map fun l => Real.sqrt l

/-- what's returned -/
inductive Res where
  | matrix (V : Nat → Nat → ℝ)
  | number (s : ℝ)
  | raw (V : Nat → Nat → ℝ) (stdev : ℝ)

/-- `_propagate_calibration_uncertainty` model_analysis.py:560-870, as all the callers (model_analysis.py:1413-1417, 1513-1517, triangulation.py:1963-1968) call it: dF_dbunpacked, observed_pixel_uncertainty
and optimization_inputs are given, and nothing else. `N`: length of F, at least 1. `none`: exception. `np.sqrt()` of a negative number doesn't occur: `rms_stdev` -/
noncomputable def propagate (C : Cholmod) (eigsh : Eigsh) (what : String) (c : Ctx) (N : Nat) (dF_dbunpacked : Mem) (observed_pixel_uncertainty : Option ℝ) : Option Res := do
  if what ∉ ["covariance", "worstdirection-stdev", "rms-stdev", "_covariance-raw"] then none
  else
    let Nstate := (numStates c.d).toNat
    let dF_dbpacked ← packUnpackArray false c.d (N * Nstate) Nstate dF_dbunpacked
    let out ← optimizerCallback c
    let J := csrOf out
    let f ← C.factorize Nstate out.x.length J
    let Nleading ← observationsLeading c
    let stdev ← observed_pixel_uncertainty.or (observedPixelUncertainty c out.x)
    let flat ← processSlice C f J Nleading N Nstate dF_dbpacked
    let V : Nat → Nat → ℝ := fun i j => flat (i * N + j)
    if what = "_covariance-raw" then some (.raw V stdev)
    else if what = "covariance" then some (.matrix fun i j => V i j * stdev * stdev)
    else if what = "worstdirection-stdev" then (worstDirectionStdev eigsh N V).map fun s => .number (s * stdev)
    else some (.number (Real.sqrt ((∑ i ∈ Finset.range N, V i i) / N) * stdev))

end Mrcal.Propagate
