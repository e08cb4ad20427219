import Verif.Model.ProjectApi
/-
`mrcal.unproject()` in Python: mrcal/projections.py:112-397. One broadcasted slice. Arithmetic is exact: `double` is ℝ, NaN is `none`. The `out` argument isn't modelled. The code past line 397 is unreachable: all
lens models have gradients, and the first statement there raises an exception.
-/
namespace Mrcal.UnprojectPy
open Mrcal.Cam

/-- `func` projections.py:257-268: the models that are handled directly -/
noncomputable def direct : Lens → Option (Core → P2 → Unproj)
  | .pinhole => some unpinhole
  | .lonlat => some unlonlat
  | .latlon => some unlatlon
  | .stereographic => some unstereographic
  | _ => none

/-- `always_normalized` projections.py:257-268 -/
def alwaysNormalized : Lens → Bool
  | .lonlat | .latlon => true
  | _ => false

/-- `nps.mag(v)` -/
noncomputable def mag (v : P3) : ℝ := Real.sqrt (v.x * v.x + v.y * v.y + v.z * v.z)

/-- `v / mag(v)` -/
noncomputable def normalized (v : P3) : P3 := ⟨v.x / mag v, v.y / mag v, v.z / mag v⟩

/-- `mrcal._mrcal_npsp._unproject()` of one pixel. `prev` is the (uninitialized) memory of the new array. `none`: an exception (a non-central CAHVORE model; an assertion of the C library) -/
noncomputable def npspUnproject (L : Lens) (intr : Int → ℝ) (solve : Solver) (q : P2) (prev : NanP3) : Option NanP3 :=
  match mrcalUnproject L intr solve 1 (fun _ => q) (fun _ => prev) with
  | some (some out) => some (out 0)
  | _ => none

/-- all 3 values are finite -/
def finite (v : NanP3) : Option P3 :=
  match v.x, v.y, v.z with
  | some x, some y, some z => some ⟨x, y, z⟩
  | _, _, _ => none

/-- `unproject(q, ..., get_gradients=False)`: projections.py:271-276, 331-345. `none`: an exception -/
noncomputable def unproject (L : Lens) (intr : Int → ℝ) (solve : Solver) (prev : NanP3) (normalize : Bool) (q : P2) : Option NanP3 :=
  match direct L with
  | some func =>
    let v := (func (coreOf intr) q).v
    some (NanP3.of (if normalize && !alwaysNormalized L then normalized v else v))
  | none =>
    (npspUnproject L intr solve q prev).map fun v =>
      if normalize then
        match finite v with
        | some v => NanP3.of (normalized v)
        | none => NanP3.of ⟨0, 0, 0⟩
      else v

/-- the results with gradients: `v`, the rows of `dv_dq`, and the columns of `dv_di` -/
structure Grads where
  v : P3
  dvx : P2
  dvy : P2
  dvz : P2
  di : Nat → P3

/-- one column `dv` of a gradient, already multiplied by `magv_recip`: `dv - v (v . dv)` projections.py:239-247. `v` is normalized already -/
def removeRadial (v dv : P3) : P3 :=
  let d := v.x * dv.x + v.y * dv.y + v.z * dv.z
  ⟨dv.x - d * v.x, dv.y - d * v.y, dv.z - d * v.z⟩

/-- `apply_normalization_to_output_with_gradients` projections.py:220-247 -/
noncomputable def normalizeGrads (g : Grads) : Grads :=
  let r := 1 / mag g.v
  let v : P3 := ⟨g.v.x * r, g.v.y * r, g.v.z * r⟩
  let c0 := removeRadial v ⟨g.dvx.x * r, g.dvy.x * r, g.dvz.x * r⟩
  let c1 := removeRadial v ⟨g.dvx.y * r, g.dvy.y * r, g.dvz.y * r⟩
  { v := v, dvx := ⟨c0.x, c1.x⟩, dvy := ⟨c0.y, c1.y⟩, dvz := ⟨c0.z, c1.z⟩
    di := fun col => removeRadial v ⟨(g.di col).x * r, (g.di col).y * r, (g.di col).z * r⟩ }

/-- the direct models with gradients: projections.py:279-317, before the normalization. There are 4 columns in `dv_di` -/
noncomputable def directGrads (func : Core → P2 → Unproj) (intr : Int → ℝ) (q : P2) : Grads :=
  let o := func (coreOf intr) q
  { v := o.v, dvx := o.dvx, dvy := o.dvy, dvz := o.dvz
    di := fun col =>
      if col = 0 then ⟨(intr 2 - q.x) / intr 0 * o.dvx.x, (intr 2 - q.x) / intr 0 * o.dvy.x, (intr 2 - q.x) / intr 0 * o.dvz.x⟩
      else if col = 1 then ⟨(intr 3 - q.y) / intr 1 * o.dvx.y, (intr 3 - q.y) / intr 1 * o.dvy.y, (intr 3 - q.y) / intr 1 * o.dvz.y⟩
      else if col = 2 then ⟨0 - o.dvx.x, 0 - o.dvy.x, 0 - o.dvz.x⟩
      else ⟨0 - o.dvx.y, 0 - o.dvy.y, 0 - o.dvz.y⟩ }

/-- the default `fxycxy` of `project_stereographic()`, `unproject_stereographic()` -/
def unitCore : Core := ⟨1, 1, 0, 0⟩

/-- a row of `dv_dq = transpose(solve(transpose(dq_du), transpose(dv_du)))`: the row of dv_du times the inverse of dq_du (whose rows are a, b) -/
noncomputable def timesInverse (row a b : P2) : P2 :=
  let det := a.x * b.y - a.y * b.x
  ⟨(row.x * b.y - row.y * b.x) / det, (row.y * a.x - row.x * a.y) / det⟩

open Classical in
/-- the gradients from those of project(): projections.py:360-392, given the finite `vs`. The outer `none`: `LinAlgError`: dq_du is singular; or an assertion. The inner one: everything is NaN: `vs` points
straight back, so that the stereographic projection divides 0 by 0 -/
noncomputable def mainGrads (L : Lens) (intr : Int → ℝ) (vs : P3) : Option (Option Grads) :=
  if mag vs + vs.z = 0 then some none
  else
    let s := unstereographic unitCore (stereographic unitCore vs).q
    match mrcalProject L intr 1 (fun _ => s.v) true true ⟨fun _ => ⟨0, 0⟩, fun _ => ⟨0, 0, 0⟩, fun _ => 0⟩ with
    | none => none
    | some o =>
      let row (d : P3) : P2 := ⟨d.x * s.dvx.x + d.y * s.dvy.x + d.z * s.dvz.x, d.x * s.dvx.y + d.y * s.dvy.y + d.z * s.dvz.y⟩
      let a := row (o.dp 0)
      let b := row (o.dp 1)
      if a.x * b.y - a.y * b.x = 0 then none
      else
        let rx := timesInverse s.dvx a b
        let ry := timesInverse s.dvy a b
        let rz := timesInverse s.dvz a b
        let n := L.numParams.toNat
        some (some
          { v := s.v, dvx := rx, dvy := ry, dvz := rz
            di := fun col =>
              let d : P2 := ⟨o.di col, o.di (n + col)⟩
              ⟨(rx.x * d.x + rx.y * d.y) * -1, (ry.x * d.x + ry.y * d.y) * -1, (rz.x * d.x + rz.y * d.y) * -1⟩ })

/-- `unproject(q, ..., get_gradients=True)`: projections.py:279-317, 348-397. The outer `none`: an exception. The inner one: NaN -/
noncomputable def unprojectGrads (L : Lens) (intr : Int → ℝ) (solve : Solver) (prev : NanP3) (normalize : Bool) (q : P2) : Option (Option Grads) :=
  match direct L with
  | some func =>
    let g := directGrads func intr q
    some (some (if normalize && !alwaysNormalized L then normalizeGrads g else g))
  | none =>
    (npspUnproject L intr solve q prev).bind fun v =>
      match finite v with
      | none => some none
      | some vs => (mainGrads L intr vs).map fun o => o.map fun g => if normalize then normalizeGrads g else g

end Mrcal.UnprojectPy
