import Verif.Model.Splines
/-
Contours: `_splined_stereographic_domain()` utils.py:587-645, `_densify_polyline()` utils.py:749-776.

Simplification: `double` is ℝ.
-/
namespace Mrcal.Polyline
open Mrcal Mrcal.Spline

/-- `list(range(a,b))` as numpy indexes with `a:b`, both already reduced to [0,N] -/
def upto (a b : Nat) : List Nat := (List.range (b - a)).map (a + ·)

/-- `a:b:-1`: a, a-1, ..., b+1 -/
def downto (a b : Nat) : List Nat := (List.range (a - b)).map (a - ·)

/-- `u[iy,ix]` utils.py:617-619: the knots of the grid -/
noncomputable def u (Nx Ny : Nat) (segs : ℝ) (iy ix : Nat) : P2 := ⟨knot Nx segs ix, knot Ny segs iy⟩

/-- `(a + b) / 2.` -/
noncomputable def mean2 (a b : P2) : P2 := ⟨(a.x + b.x) / 2, (a.y + b.y) / 2⟩
/-- `(a + b + c + d) / 4.` -/
noncomputable def mean4 (a b c d : P2) : P2 := ⟨(a.x + b.x + c.x + d.x) / 4, (a.y + b.y + c.y + d.y) / 4⟩

/-- utils.py:621-645, with the grid Nx x Ny. Negative indices -k are N-k: the grid is at least 3 x 3 with order 2, 4 x 4 with order 3. none: exception -/
noncomputable def splineDomain (order Nx Ny : Nat) (segs : ℝ) : Option (List P2) :=
  let u := u Nx Ny segs
  if order = 2 then
    some (
      (upto 1 (Nx - 2)).map (fun i => mean2 (u 0 i) (u 1 i)) ++
      [mean4 (u 0 (Nx - 2)) (u 1 (Nx - 2)) (u 0 (Nx - 1)) (u 1 (Nx - 1))] ++
      (upto 1 (Ny - 2)).map (fun j => mean2 (u j (Nx - 2)) (u j (Nx - 1))) ++
      [mean4 (u (Ny - 2) (Nx - 2)) (u (Ny - 1) (Nx - 2)) (u (Ny - 2) (Nx - 1)) (u (Ny - 1) (Nx - 1))] ++
      (downto (Nx - 2) 1).map (fun i => mean2 (u (Ny - 2) i) (u (Ny - 1) i)) ++
      [mean4 (u (Ny - 2) 1) (u (Ny - 1) 1) (u (Ny - 2) 0) (u (Ny - 1) 0)] ++
      (downto (Ny - 2) 0).map (fun j => mean2 (u j 0) (u j 1)) ++
      [mean4 (u 0 0) (u 0 1) (u 1 0) (u 1 1)] ++
      [mean2 (u 0 1) (u 1 1)])
  else if order = 3 then
    some (
      (upto 1 (Nx - 2)).map (fun i => u 1 i) ++
      (upto 1 (Ny - 2)).map (fun j => u j (Nx - 2)) ++
      (downto (Nx - 2) 1).map (fun i => u (Ny - 2) i) ++
      (downto (Ny - 2) 0).map (fun j => u j 1))
  else none

/-- `int()` of python, on a real number -/
noncomputable def int (x : ℝ) : Int := truncC x

/-- the inner loop utils.py:761-775: what is appended for the segment from a to b -/
noncomputable def densifySegment (spacing : ℝ) (a b : P2) : List P2 :=
  let d : P2 := ⟨b.x - a.x, b.y - a.y⟩
  let l := Real.sqrt (d.x * d.x + d.y * d.y)
  let N := int (l / spacing - 1e-6 + 1)
  (List.range N.toNat).map fun (j : Nat) => (⟨((j + 1 : Nat) : ℝ) / (N : ℝ) * d.x + a.x, ((j + 1 : Nat) : ℝ) / (N : ℝ) * d.y + a.y⟩ : P2)

/-- all the segments -/
noncomputable def densifyRest (spacing : ℝ) : P2 → List P2 → List P2
  | _, [] => []
  | a, b :: l => densifySegment spacing a b ++ densifyRest spacing b l

/-- what comes back: None, or an array of shape (2,), or an array of shape (N,2) -/
inductive Dense
  | none
  | flat (p : P2)
  | rows (l : List P2)

/-- `_densify_polyline()` utils.py:749-776. The argument is None, or has shape (N,2). `p1` starts with shape (2,): nps.glue() makes it a (N,2) array as soon as anything is appended -/
noncomputable def densify (spacing : ℝ) (p : Option (List P2)) : Dense :=
  match p with
  | .none => .none
  | some [] => .rows []
  | some (a :: l) =>
    match densifyRest spacing a l with
    | [] => .flat a
    | r => .rows (a :: r)

end Mrcal.Polyline
