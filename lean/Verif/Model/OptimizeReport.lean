import Verif.Model.Measurements
/-
The verbose report at the end of mrcal_optimize: mrcal.c:6491-6590.
-/
namespace Mrcal.Report
open Mrcal

/-- How many values of the measurement vector the report reads, starting at the first regularization
measurement (the `*(xreg++)` mrcal.c:6511-6568). -/
def regReads (d : Dims) : Int :=
  let Ncore : Int := if d.lens.hasCore then 4 else 0
  let NDist : Int := if d.sel.distortions then d.Nci * (d.lens.numParams - Ncore) else 0
  let Ncenter : Int := if d.sel.core then d.Nci * 2 else 0
  let Nunity : Int := if d.sel.unityCam01 && d.sel.extrinsics && decide (d.Nce > 0) then 1 else 0
  NDist + Ncenter + Nunity

/-- What happens in the `if(imeas_reg0 >= 0 && verbose)` block: nothing, or a run that ends in the
`assert(xreg == &x[Nmeasurements])` mrcal.c:6570 -/
inductive Outcome
  | skipped
  | reported
  | assertFailed
  deriving DecidableEq, Repr

/-- mrcal.c:6491-6590. `none`: the triangulated observations aren't terminated -/
def verboseReport (verbose : Bool) (d : Dims) (Nop : Int) (obs : List TriObs) (W H : Int) : Option Outcome := do
  let imeas_reg0 ← measurementIndexRegularization d Nop obs W H
  let N ← numMeasurements d Nop obs W H
  if decide (imeas_reg0 ≥ 0) && verbose then
    if imeas_reg0 + regReads d = N then some .reported else some .assertFailed
  else some .skipped

end Mrcal.Report
