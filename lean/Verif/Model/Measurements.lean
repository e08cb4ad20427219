import Verif.Model.StateLayout
import Mathlib.Analysis.Real.Sqrt
import Mathlib.Algebra.Order.Floor.Ring
import Mathlib.Algebra.Order.Archimedean.Real.Basic
/-
Measurement-vector layout: mrcal.c:381-735, and the triangulated-point bookkeeping.
-/
namespace Mrcal

/-- `mrcal_observation_point_triangulated_t` (types.h): only the parts that affect the layout. The
observation vector `px` is not needed here. -/
structure TriObs where
  last : Bool        -- last_in_set
  outlier : Bool
  icamI : Int        -- icam.intrinsics
  icamE : Int        -- icam.extrinsics
  deriving DecidableEq, Repr

/-- `num_regularization_terms_percamera` mrcal.c:381-393 -/
def numRegularizationPercamera (sel : Sel) (lens : Lens) : Int :=
  if !sel.regularization then 0
  else
    let N := numDistortionsOpt sel lens
    if sel.core then N + 2 else N

/-- `mrcal_num_measurements_boards` mrcal.c:412-430 -/
def numMeasurementsBoards (Nob W H : Int) : Int :=
  if Nob ≤ 0 then 0 else Nob * W * H * 2

/-- `mrcal_measurement_index_boards` mrcal.c:395-410 -/
def measurementIndexBoards (i Nob W H : Int) : Int :=
  if Nob ≤ 0 then -1 else 0 + numMeasurementsBoards i W H

/-- `mrcal_num_measurements_points` mrcal.c:453-457 -/
def numMeasurementsPoints (Nop : Int) : Int := Nop * 2

/-- `mrcal_measurement_index_points` mrcal.c:432-447 -/
def measurementIndexPoints (i Nob Nop W H : Int) : Int :=
  if Nop ≤ 0 then -1 else numMeasurementsBoards Nob W H + i * 2

/-- The inner `while(!last_in_set)` loop of
`mrcal_num_measurements_points_triangulated_initial_Npoints` mrcal.c:511-516. The argument is the array
from `iobservation` on. Result: the array after the set, and `Nmeas`. `none` = the loop reads past
the end of the array. -/
def triSetCount : List TriObs → (Nset Nmeas : Int) → Option (List TriObs × Int)
  | [], _, _ => none
  | o :: os, Nset, Nmeas =>
    if o.last then some (os, Nmeas) else triSetCount os (Nset + 1) (Nmeas + Nset)

theorem triSetCount_length {l : List TriObs} {a b : Int} {r} (h : triSetCount l a b = some r) :
    r.1.length < l.length := by
  induction l generalizing a b with
  | nil => simp [triSetCount] at h
  | cons o os ih =>
    simp only [triSetCount] at h
    split at h
    · cases h; simp
    · have := ih h; simp; omega

/-- The outer loop of `mrcal_num_measurements_points_triangulated_initial_Npoints` mrcal.c:504-522.
`Npoints < 0` means: all points. -/
def triInitialLoop (Npoints : Int) (l : List TriObs) (ipoint Nmeas : Int) : Option Int :=
  match l with
  | [] => some Nmeas
  | o :: os =>
    if Npoints < 0 ∨ ipoint < Npoints then
      match h : triSetCount (o :: os) 1 Nmeas with
      | none => none
      | some (rest, Nmeas') =>
        have : rest.length < (o :: os).length := triSetCount_length h
        triInitialLoop Npoints rest (ipoint + 1) Nmeas'
    else some Nmeas
termination_by l.length
decreasing_by simp only [List.length_cons] at this ⊢; omega

/-- `mrcal_num_measurements_points_triangulated_initial_Npoints` mrcal.c:490-523. `none` = reads past
the end of the array. A NULL array is an empty list. -/
def numMeasurementsTriInitial (obs : List TriObs) (Npoints : Int) : Option Int :=
  if obs.length ≤ 0 then some 0 else triInitialLoop Npoints obs 0 0

/-- `mrcal_num_measurements_points_triangulated` mrcal.c:525-533 -/
def numMeasurementsTri (obs : List TriObs) : Option Int := numMeasurementsTriInitial obs (-1)

/-- `mrcal_measurement_index_points_triangulated` mrcal.c:462-485 -/
def measurementIndexTri (i Nob Nop : Int) (obs : List TriObs) (W H : Int) : Option Int :=
  if obs.length ≤ 0 then some (-1)
  else (numMeasurementsTriInitial obs i).map fun n =>
    numMeasurementsBoards Nob W H + numMeasurementsPoints Nop + n

/-- `mrcal_num_measurements_regularization` mrcal.c:693-706 -/
def numMeasurementsRegularization (d : Dims) : Int :=
  d.Nci * numRegularizationPercamera d.sel d.lens +
    (if d.sel.unityCam01 && d.sel.extrinsics && decide (d.Nce > 0) then 1 else 0)

/-- `mrcal_measurement_index_regularization` mrcal.c:660-691 -/
def measurementIndexRegularization (d : Dims) (Nop : Int) (obs : List TriObs) (W H : Int) : Option Int :=
  if numMeasurementsRegularization d ≤ 0 then some (-1)
  else (numMeasurementsTri obs).map fun n =>
    numMeasurementsBoards d.Nob W H + numMeasurementsPoints Nop + n

/-- `mrcal_num_measurements` mrcal.c:708-735 -/
def numMeasurements (d : Dims) (Nop : Int) (obs : List TriObs) (W H : Int) : Option Int :=
  (numMeasurementsTri obs).map fun n =>
    numMeasurementsBoards d.Nob W H + numMeasurementsPoints Nop + n + numMeasurementsRegularization d

/-- C conversion `(int)x` of a double: truncation toward zero. -/
noncomputable def truncToInt (x : ℝ) : Int := if 0 ≤ x then ⌊x⌋ else ⌈x⌉

/-- Results of `mrcal_decode_observation_indices_points_triangulated`. -/
structure Decoded where
  iobservation0 : Int
  iobservation1 : Int
  iobservationPoint0 : Int
  NobservationsThisPoint : Int
  NmeasurementsThisPoint : Int
  ipoint : Int

/-- The inner loop mrcal.c:567-572: how many observations in this set, and the array after it. -/
def triSetLen : List TriObs → (Nset : Int) → Option (List TriObs × Int)
  | [], _ => none
  | o :: os, Nset => if o.last then some (os, Nset) else triSetLen os (Nset + 1)

theorem triSetLen_length {l : List TriObs} {a : Int} {r} (h : triSetLen l a = some r) :
    r.1.length < l.length := by
  induction l generalizing a with
  | nil => simp [triSetLen] at h
  | cons o os ih =>
    simp only [triSetLen] at h
    split at h
    · cases h; simp
    · have := ih h; simp; omega

/-- mrcal.c:635-637: the pair (o0,o1) inside a set of `No` observations for the `m`-th measurement of
that set. `sqrt` is the real square root; integer division is C division. -/
noncomputable def triPairFromIndex (No m : Int) : Int × Int :=
  let x : ℝ := 2 * (No : ℝ) - 1
  let o0 := truncToInt ((x - Real.sqrt (x * x - 8 * (m : ℝ))) / 2)
  let o1 := m + Int.tdiv (o0 * (o0 + 3 - 2 * No)) 2 + 1
  (o0, o1)

/-- Outer loop of the decode function, mrcal.c:561-656. The first `Option` layer: `none` = reads past
the end of the array; the second: `none` = returned `false`. -/
noncomputable def decodeLoop (imeas : Int) (l : List TriObs) (iobs Nmeas ipoint : Int) :
    Option (Option Decoded) :=
  match l with
  | [] => some none
  | o :: os =>
    match h : triSetLen (o :: os) 1 with
    | none => none
    | some (rest, Nset) =>
      let iobsLast := iobs + Nset - 1
      let NmeasThis := Int.tdiv (Nset * (Nset - 1)) 2
      if imeas < Nmeas + NmeasThis then
        let m := imeas - Nmeas
        let p := triPairFromIndex Nset m
        let point0 := iobsLast - Nset + 1
        some (some ⟨p.1 + point0, p.2 + point0, point0, Nset, NmeasThis, ipoint⟩)
      else
        have : rest.length < (o :: os).length := triSetLen_length h
        decodeLoop imeas rest (iobsLast + 1) (Nmeas + NmeasThis) (ipoint + 1)
termination_by l.length
decreasing_by simp only [List.length_cons] at this ⊢; omega

/-- `mrcal_decode_observation_indices_points_triangulated` mrcal.c:538-657 -/
noncomputable def decodeTri (imeas : Int) (obs : List TriObs) : Option (Option Decoded) :=
  if obs.length ≤ 0 then some none else decodeLoop imeas obs 0 0 0

/-- The inner `while(true)` loop over `i1` of the triangulated part of `optimizer_callback`
mrcal.c:5275-5578 (and 5587-5650, the same for an outlier `pt0`): the pairs that get a measurement, in
order. The list is the array from `i1` on. -/
def triPairsInner (i0 i1 : Int) : List TriObs → Option (List (Int × Int))
  | [] => none
  | o :: os =>
    if o.last then some [(i0, i1)]
    else (triPairsInner i0 (i1 + 1) os).map ((i0, i1) :: ·)

/-- The outer loop over `i0` mrcal.c:5197-5652. -/
def triPairs (i0 : Int) : List TriObs → Option (List (Int × Int))
  | [] => some []
  | o :: os =>
    if o.last then triPairs (i0 + 1) os
    else do
      let row ← triPairsInner i0 (i0 + 1) os
      let rest ← triPairs (i0 + 1) os
      pure (row ++ rest)

end Mrcal
