import Verif.Model.Lens
import Verif.Model.Geom
import Mathlib.Analysis.Real.Sqrt
import Mathlib.Analysis.SpecialFunctions.Trigonometric.Basic
import Mathlib.Algebra.Order.Archimedean.Real.Basic
import Mathlib.Algebra.Order.Floor.Ring
/-
The splined-stereographic projection: mrcal.c:885-1050 (B-spline sampling), mrcal.c:1904-1999 (precomputed data,
knots), mrcal.c:2076-2292 (_project_point_splined).

Arithmetic is exact: `double` is ℝ.
-/
namespace Mrcal.Spline

/-- the weights of 3 or 4 sequential control points -/
structure W4 where
  a : ℝ
  b : ℝ
  c : ℝ
  d : ℝ
structure W3 where
  a : ℝ
  b : ℝ
  c : ℝ

/-- `get_sample_coeffs__cubic` mrcal.c:903-916, `ABCD` -/
noncomputable def cubicW (x : ℝ) : W4 :=
  let x2 := x * x
  let x3 := x2 * x
  ⟨(-x3 + 3 * x2 - 3 * x + 1) / 6, (3 * x3 / 2 - 3 * x2 + 2) / 3, (-3 * x3 + 3 * x2 + 3 * x + 1) / 6, x3 / 6⟩
/-- `get_sample_coeffs__cubic` mrcal.c:903-916, `ABCDgrad` -/
noncomputable def cubicG (x : ℝ) : W4 :=
  let x2 := x * x
  ⟨-x2 / 2 + x - 1 / 2, 3 * x2 / 2 - 2 * x, -3 * x2 / 2 + x + 1 / 2, x2 / 2⟩

/-- `get_sample_coeffs__quadratic` mrcal.c:985-995, `ABC` -/
noncomputable def quadW (x : ℝ) : W3 :=
  let x2 := x * x
  ⟨(4 * x2 - 4 * x + 1) / 8, (3 - 4 * x2) / 4, (4 * x2 + 4 * x + 1) / 8⟩
/-- `get_sample_coeffs__quadratic` mrcal.c:985-995, `ABCgrad` -/
noncomputable def quadG (x : ℝ) : W3 :=
  ⟨x - 1 / 2, -2 * x, x + 1 / 2⟩

/-- `interp__cubic` mrcal.c:918-938. `c` is the memory at the control-point pointer; this is the value for the
surface `k`: 0 or 1 -/
noncomputable def interpCubic (wx wy : W4) (c : Int → ℝ) (stridey : Int) (k : Int) : ℝ :=
  let row (iy : Int) := wx.a * c (iy * stridey + 0 * 2 + k) + wx.b * c (iy * stridey + 1 * 2 + k) +
                        wx.c * c (iy * stridey + 2 * 2 + k) + wx.d * c (iy * stridey + 3 * 2 + k)
  wy.a * row 0 + wy.b * row 1 + wy.c * row 2 + wy.d * row 3

/-- `interp__quadratic` mrcal.c:997-1015 -/
noncomputable def interpQuad (wx wy : W3) (c : Int → ℝ) (stridey : Int) (k : Int) : ℝ :=
  let row (iy : Int) := wx.a * c (iy * stridey + 0 * 2 + k) + wx.b * c (iy * stridey + 1 * 2 + k) +
                        wx.c * c (iy * stridey + 2 * 2 + k)
  wy.a * row 0 + wy.b * row 1 + wy.c * row 2

/-- what sampling one surface produces: the value and the two derivatives -/
structure Sample where
  out : ℝ
  dx : ℝ
  dy : ℝ

/-- `sample_bspline_surface_cubic` mrcal.c:940-974 -/
noncomputable def sampleCubic (x y : ℝ) (c : Int → ℝ) (stridey : Int) (k : Int) : Sample :=
  ⟨interpCubic (cubicW x) (cubicW y) c stridey k,
   interpCubic (cubicG x) (cubicW y) c stridey k,
   interpCubic (cubicW x) (cubicG y) c stridey k⟩

/-- `sample_bspline_surface_quadratic` mrcal.c:1017-1050 -/
noncomputable def sampleQuad (x y : ℝ) (c : Int → ℝ) (stridey : Int) (k : Int) : Sample :=
  ⟨interpQuad (quadW x) (quadW y) c stridey k,
   interpQuad (quadG x) (quadW y) c stridey k,
   interpQuad (quadW x) (quadG y) c stridey k⟩

/-- `(int)x`: truncation towards 0. Values that don't fit into an `int` are undefined behaviour in C; the
in-bounds theorems allow any integer at all here. -/
noncomputable def truncC (x : ℝ) : Int := if 0 ≤ x then ⌊x⌋ else ⌈x⌉

/-- `if(i < lo) i = lo; else if(i > hi) i = hi;` -/
def clampI (lo hi i : Int) : Int := if i < lo then lo else if i > hi then hi else i

/-- `ix0`, `iy0` for cubic splines, from the truncated grid coordinate mrcal.c:2166-2175 -/
def cubicWindow (N : Int) (i : Int) : Int := clampI 1 (N - 3) i
/-- `ix0`, `iy0` for quadratic splines, from the truncated grid coordinate mrcal.c:2193-2202 -/
def quadWindow (N : Int) (i : Int) : Int := clampI 1 (N - 2) i

/-- `*ivar0` mrcal.c:2177-2180, mrcal.c:2204-2207 -/
def ivar0 (Nx ix0 iy0 : Int) : Int := 4 + 2 * ((iy0 - 1) * Nx + (ix0 - 1))

/-- The sampling of one of the two correction surfaces, at the given grid coordinates mrcal.c:2164-2216.
`none` for the other orders: the C asserts. -/
noncomputable def sampleSurface (order : Nat) (Nx Ny : Int) (intrinsics : Int → ℝ) (ix iy : ℝ) (k : Int) : Option Sample :=
  if order = 3 then
    let ix0 := cubicWindow Nx (truncC ix)
    let iy0 := cubicWindow Ny (truncC iy)
    some (sampleCubic (ix - ix0) (iy - iy0) (fun i => intrinsics (ivar0 Nx ix0 iy0 + i)) (2 * Nx) k)
  else if order = 2 then
    let ix0 := quadWindow Nx (truncC (ix + 0.5))
    let iy0 := quadWindow Ny (truncC (iy + 0.5))
    some (sampleQuad (ix - ix0) (iy - iy0) (fun i => intrinsics (ivar0 Nx ix0 iy0 + i)) (2 * Nx) k)
  else none

/-- `_mrcal_precompute_lensmodel_data_MRCAL_LENSMODEL_SPLINED_STEREOGRAPHIC` mrcal.c:1904-1952. `none`: assert. -/
noncomputable def segmentsPerU (order Nx Ny fovXDeg : Nat) : Option ℝ :=
  let go (margin : Int) : ℝ :=
    let th_edge_x := (fovXDeg : ℝ) / 2 * Real.pi / 180
    let u_edge_x := Real.tan (th_edge_x / 2) * 2
    (((Nx : Int) - 1 - margin : Int) : ℝ) / (u_edge_x * 2)
  if order = 2 then if Nx < 3 ∨ Ny < 3 then none else some (go 1)
  else if order = 3 then if Nx < 4 ∨ Ny < 4 then none else some (go 2)
  else none

/-- `mrcal_knots_for_splined_models` mrcal.c:1967-1999, one axis -/
noncomputable def knot (N : Nat) (segs : ℝ) (i : Nat) : ℝ := ((i : ℝ) - (((N : Int) - 1 : Int) : ℝ) / 2) / segs

/-- the grid coordinate mrcal.c:2154-2155, one axis -/
noncomputable def gridCoord (N : Nat) (segs : ℝ) (u : ℝ) : ℝ := u * segs + (((N : Int) - 1 : Int) : ℝ) / 2

/-- the normalized stereographic projection in `_project_point_splined` mrcal.c:2131-2136 -/
noncomputable def stereoScale (p : P3) : ℝ := 2.0 / (Real.sqrt (p.x * p.x + p.y * p.y + p.z * p.z) + p.z)
noncomputable def stereoU (p : P3) : P2 := ⟨p.x * stereoScale p, p.y * stereoScale p⟩

/-- `du_dp` mrcal.c:2145-2152: rows -/
noncomputable def stereoDu (p : P3) : P3 × P3 :=
  let mag_p := Real.sqrt (p.x * p.x + p.y * p.y + p.z * p.z)
  let scale := stereoScale p
  let A := -scale * scale / 2
  let B := A / mag_p
  (⟨p.x * (B * p.x) + scale, p.x * (B * p.y), p.x * (B * p.z + A)⟩,
   ⟨p.y * (B * p.x), p.y * (B * p.y) + scale, p.y * (B * p.z + A)⟩)

/-- everything `_project_point_splined` computes at one point, apart from the propagation to the
extrinsics -/
structure Projected where
  q : P2
  /-- `dq_dfxy` -/
  dq_dfxy : P2
  /-- `ddeltau_dux`, `ddeltau_duy`, converted to derivatives with respect to u -/
  ddux : P2
  dduy : P2
  /-- `dq_dtframe` with the camera at the identity: `propagate_extrinsics_cam0__splined` mrcal.c:2052-2073. This
  is the gradient with respect to the point -/
  dqx_dp : P3
  dqy_dp : P3

/-- `_project_point_splined` mrcal.c:2076-2292 -/
noncomputable def projectSplined (order : Nat) (Nx Ny : Nat) (segs : ℝ) (intrinsics : Int → ℝ) (p : P3) : Option Projected :=
  let u := stereoU p
  let du := stereoDu p
  let ix := gridCoord Nx segs u.x
  let iy := gridCoord Ny segs u.y
  match sampleSurface order Nx Ny intrinsics ix iy 0, sampleSurface order Nx Ny intrinsics ix iy 1 with
  | some s0, some s1 =>
    let fx := intrinsics 0
    let fy := intrinsics 1
    let cx := intrinsics 2
    let cy := intrinsics 3
    let ddux : P2 := ⟨s0.dx * segs, s1.dx * segs⟩
    let dduy : P2 := ⟨s0.dy * segs, s1.dy * segs⟩
    some {
      q := ⟨(u.x + s0.out) * fx + cx, (u.y + s1.out) * fy + cy⟩
      dq_dfxy := ⟨u.x + s0.out, u.y + s1.out⟩
      ddux := ddux
      dduy := dduy
      dqx_dp := ⟨fx * (du.1.x * (1 + ddux.x) + dduy.x * du.2.x),
                 fx * (du.1.y * (1 + ddux.x) + dduy.x * du.2.y),
                 fx * (du.1.z * (1 + ddux.x) + dduy.x * du.2.z)⟩
      dqy_dp := ⟨fy * (du.2.x * (1 + dduy.y) + ddux.y * du.1.x),
                 fy * (du.2.y * (1 + dduy.y) + ddux.y * du.1.y),
                 fy * (du.2.z * (1 + dduy.y) + ddux.y * du.1.z)⟩ }
  | _, _ => none

/-- `ABCDx`, `ABCDy` as arrays. Out of range: never read -/
def W4.nth (w : W4) : Nat → ℝ
  | 0 => w.a
  | 1 => w.b
  | 2 => w.c
  | _ => w.d
/-- `ABCx`, `ABCy` as arrays -/
def W3.nth (w : W3) : Nat → ℝ
  | 0 => w.a
  | 1 => w.b
  | _ => w.c

/-- `gradient_sparse_meta_t.ivar_stridey` mrcal.c:2299, mrcal.c:2749: stored in a `uint16_t` -/
def ivarStridey (Nx : Nat) : Nat := (2 * Nx) % 65536

/-- the loop body of mrcal.c:2983-2991 for one `i_xy`: the writes into `dq_dintrinsics[.. + i_xy*Nintrinsics]`, in order -/
def splineWrites (len : Nat) (ABCDx ABCDy : Nat → ℝ) (ivar0 : Int) (stridey : Nat) (f : ℝ) (i_xy : Nat) : List (Int × ℝ) :=
  (List.range len).flatMap fun (iy : Nat) => (List.range len).map fun (ix : Nat) =>
    ((ivar0 + (stridey : Int) * (iy : Int) + (ix : Int) * 2 + (i_xy : Int) : Int), ABCDx ix * ABCDy iy * f)

/-- `a[e.1] = e.2` for each `e`, in order -/
def writeAll (ws : List (Int × ℝ)) (a : Int → ℝ) : Int → ℝ :=
  ws.foldl (fun a e => fun i => if i = e.1 then e.2 else a i) a

/-- row `i_xy` of `dq_dintrinsics` as `_mrcal_project_internal` reports it for the splined models, for one point
mrcal.c:2910-2991: zeroed, the core, then the control points. Given the already-computed projection: `pr` -/
noncomputable def dqDintrinsics (order Nx Ny : Nat) (segs : ℝ) (intrinsics : Int → ℝ) (p : P3) (i_xy : Nat) : Option (Int → ℝ) :=
  match projectSplined order Nx Ny segs intrinsics p with
  | none => none
  | some pr =>
    let u := stereoU p
    let ix := gridCoord Nx segs u.x
    let iy := gridCoord Ny segs u.y
    let core : List (Int × ℝ) :=
      if i_xy = 0 then [(0, pr.dq_dfxy.x), (1, 0), (2, 1), (3, 0)]
      else [(0, 0), (1, pr.dq_dfxy.y), (2, 0), (3, 1)]
    let f := if i_xy = 0 then intrinsics 0 else intrinsics 1
    let ws :=
      if order = 3 then
        let ix0 := cubicWindow Nx (truncC ix)
        let iy0 := cubicWindow Ny (truncC iy)
        splineWrites 4 (cubicW (ix - ix0)).nth (cubicW (iy - iy0)).nth (ivar0 Nx ix0 iy0) (ivarStridey Nx) f i_xy
      else
        let ix0 := quadWindow Nx (truncC (ix + 0.5))
        let iy0 := quadWindow Ny (truncC (iy + 0.5))
        splineWrites 3 (quadW (ix - ix0)).nth (quadW (iy - iy0)).nth (ivar0 Nx ix0 iy0) (ivarStridey Nx) f i_xy
    some (writeAll (core ++ ws) fun _ => 0)

/-- `mrcal_project_stereographic` mrcal.c:1511-1574, the pixel only, one point. `fxycxy` as 4 numbers. -/
noncomputable def projectStereographic (fx fy cx cy : ℝ) (v : P3) : P2 :=
  let mag_v := Real.sqrt (v.x * v.x + v.y * v.y + v.z * v.z)
  let scale := 2.0 / (mag_v + v.z)
  ⟨v.x * scale * fx + cx, v.y * scale * fy + cy⟩

end Mrcal.Spline
