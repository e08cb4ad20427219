import Verif.Model.Geom
import Mathlib.Analysis.SpecialFunctions.Trigonometric.Inverse
import Mathlib.Analysis.SpecialFunctions.Complex.Arg
/-
The parameter-less projections: mrcal.c:1435-1902. Arithmetic is exact: `double` is ℝ. Each C function loops over N
points. Here the body of each loop is a function of one point, and the loop is modelled separately: what matters about
it is where each result is written.
-/
namespace Mrcal.Cam

/-- `fxycxy` -/
structure Core where
  fx : ℝ
  fy : ℝ
  cx : ℝ
  cy : ℝ

/-- a pixel, with the rows of `dq_dv` -/
structure Proj where
  q : P2
  dqx : P3
  dqy : P3

/-- a vector, with the rows of `dv_dq` -/
structure Unproj where
  v : P3
  dvx : P2
  dvy : P2
  dvz : P2

/-- the body of the loop in `mrcal_project_pinhole` mrcal.c:1455-1470 -/
noncomputable def pinhole (k : Core) (v : P3) : Proj :=
  let pz_recip := 1 / v.z
  { q := ⟨v.x * pz_recip * k.fx + k.cx, v.y * pz_recip * k.fy + k.cy⟩
    dqx := ⟨k.fx * pz_recip, 0, -k.fx * v.x * pz_recip * pz_recip⟩
    dqy := ⟨0, k.fy * pz_recip, -k.fy * v.y * pz_recip * pz_recip⟩ }

/-- the body of the loop in `mrcal_unproject_pinhole` mrcal.c:1491-1506 -/
noncomputable def unpinhole (k : Core) (q : P2) : Unproj :=
  let fx_recip := 1 / k.fx
  let fy_recip := 1 / k.fy
  { v := ⟨(q.x - k.cx) / k.fx, (q.y - k.cy) / k.fy, 1⟩
    dvx := ⟨fx_recip, 0⟩
    dvy := ⟨0, fy_recip⟩
    dvz := ⟨0, 0⟩ }

/-- the body of the loop in `mrcal_project_stereographic` mrcal.c:1543-1573 -/
noncomputable def stereographic (k : Core) (v : P3) : Proj :=
  let mag_xyz := Real.sqrt (v.x * v.x + v.y * v.y + v.z * v.z)
  let scale := 2.0 / (mag_xyz + v.z)
  let A := -scale * scale / 2
  let B := A / mag_xyz
  { dqx := ⟨k.fx * (v.x * (B * v.x) + scale), k.fx * (v.x * (B * v.y)), k.fx * (v.x * (B * v.z + A))⟩
    dqy := ⟨k.fy * (v.y * (B * v.x)), k.fy * (v.y * (B * v.y) + scale), k.fy * (v.y * (B * v.z + A))⟩
    q := ⟨v.x * scale * k.fx + k.cx, v.y * scale * k.fy + k.cy⟩ }

/-- the body of the loop in `mrcal_unproject_stereographic` mrcal.c:1664-1684 -/
noncomputable def unstereographic (k : Core) (q : P2) : Unproj :=
  let fx_recip := 1 / k.fx
  let fy_recip := 1 / k.fy
  let u : P2 := ⟨(q.x - k.cx) * fx_recip, (q.y - k.cy) * fy_recip⟩
  let norm2u := u.x * u.x + u.y * u.y
  { dvx := ⟨1.0 * fx_recip, 0⟩
    dvy := ⟨0, 1.0 * fy_recip⟩
    dvz := ⟨-u.x / 2.0 * fx_recip, -u.y / 2.0 * fy_recip⟩
    v := ⟨u.x, u.y, 1 - 1 / 4 * norm2u⟩ }

/-- libm's `atan2(y,x)`. There are no signed zeros in ℝ, so the two sides of the cut at (y=0, x<0) aren't
distinguished -/
noncomputable def atan2 (y x : ℝ) : ℝ := Complex.arg ⟨x, y⟩

/-- the body of the loop in `mrcal_project_lonlat` mrcal.c:1719-1743 -/
noncomputable def lonlat (k : Core) (v : P3) : Proj :=
  let norm2_xyz_recip := 1 / (v.x * v.x + v.y * v.y + v.z * v.z)
  let mag_xyz_recip := Real.sqrt norm2_xyz_recip
  let norm2_xz_recip := 1 / (v.x * v.x + v.z * v.z)
  let mag_xz_recip := Real.sqrt norm2_xz_recip
  { dqx := ⟨k.fx * norm2_xz_recip * v.z, 0, -k.fx * norm2_xz_recip * v.x⟩
    dqy := ⟨-k.fy * mag_xz_recip * (v.y * v.x * norm2_xyz_recip),
            -k.fy * mag_xz_recip * (v.y * v.y * norm2_xyz_recip - 1),
            -k.fy * mag_xz_recip * (v.y * v.z * norm2_xyz_recip)⟩
    q := ⟨atan2 v.x v.z * k.fx + k.cx, Real.arcsin (v.y * mag_xyz_recip) * k.fy + k.cy⟩ }

/-- the body of the loop in `mrcal_unproject_lonlat` mrcal.c:1792-1815 -/
noncomputable def unlonlat (k : Core) (q : P2) : Unproj :=
  let fx_recip := 1 / k.fx
  let fy_recip := 1 / k.fy
  let lon := (q.x - k.cx) * fx_recip
  let lat := (q.y - k.cy) * fy_recip
  let slat := Real.sin lat
  let clat := Real.cos lat
  let slon := Real.sin lon
  let clon := Real.cos lon
  { dvx := ⟨fx_recip * clat * clon, -fy_recip * slat * slon⟩
    dvy := ⟨0, fy_recip * clat⟩
    dvz := ⟨-fx_recip * clat * slon, -fy_recip * slat * clon⟩
    v := ⟨clat * slon, slat, clat * clon⟩ }

/-- the body of the loop in `mrcal_project_latlon` mrcal.c:1834-1858 -/
noncomputable def latlon (k : Core) (v : P3) : Proj :=
  let norm2_xyz_recip := 1 / (v.x * v.x + v.y * v.y + v.z * v.z)
  let mag_xyz_recip := Real.sqrt norm2_xyz_recip
  let norm2_yz_recip := 1 / (v.y * v.y + v.z * v.z)
  let mag_yz_recip := Real.sqrt norm2_yz_recip
  { dqx := ⟨-k.fx * mag_yz_recip * (v.x * v.x * norm2_xyz_recip - 1),
            -k.fx * mag_yz_recip * (v.x * v.y * norm2_xyz_recip),
            -k.fx * mag_yz_recip * (v.x * v.z * norm2_xyz_recip)⟩
    dqy := ⟨0, k.fy * norm2_yz_recip * v.z, -k.fy * norm2_yz_recip * v.y⟩
    q := ⟨Real.arcsin (v.x * mag_xyz_recip) * k.fx + k.cx, atan2 v.y v.z * k.fy + k.cy⟩ }

/-- the body of the loop in `mrcal_unproject_latlon` mrcal.c:1877-1901 -/
noncomputable def unlatlon (k : Core) (q : P2) : Unproj :=
  let fx_recip := 1 / k.fx
  let fy_recip := 1 / k.fy
  let lat := (q.x - k.cx) * fx_recip
  let lon := (q.y - k.cy) * fy_recip
  let slat := Real.sin lat
  let clat := Real.cos lat
  let slon := Real.sin lon
  let clon := Real.cos lon
  { dvx := ⟨fx_recip * clat, 0⟩
    dvy := ⟨-fx_recip * slat * slon, fy_recip * clat * clon⟩
    dvz := ⟨-fx_recip * slat * clon, -fy_recip * clat * slon⟩
    v := ⟨slat, clat * slon, clat * clon⟩ }

/-! ### the loops: memory is a function of the index -/

/-- `for(i=0; i<N; i++) out[where(i)] = value(i)` -/
def loopWrite {α : Type} (N : Nat) (at_ : Nat → Nat) (value : Nat → α) (out : Nat → α) : Nat → α :=
  (List.range N).foldl (fun out i => fun j => if j = at_ i then value i else out j) out

/-- the `q` array after `mrcal_project_pinhole` mrcal.c:1455-1460: writes `q->x`, `q->y`, and never `q[i]` -/
noncomputable def projectPinholeN (k : Core) (N : Nat) (v : Nat → P3) (q : Nat → P2) : Nat → P2 :=
  loopWrite N (fun _ => 0) (fun i => (pinhole k (v i)).q) q
/-- the `q` array after `mrcal_project_stereographic` mrcal.c:1543-1573 -/
noncomputable def projectStereographicN (k : Core) (N : Nat) (v : Nat → P3) (q : Nat → P2) : Nat → P2 :=
  loopWrite N (fun i => i) (fun i => (stereographic k (v i)).q) q
/-- the `q` array after `mrcal_project_lonlat` mrcal.c:1719-1743 -/
noncomputable def projectLonlatN (k : Core) (N : Nat) (v : Nat → P3) (q : Nat → P2) : Nat → P2 :=
  loopWrite N (fun i => i) (fun i => (lonlat k (v i)).q) q
/-- the `q` array after `mrcal_project_latlon` mrcal.c:1834-1858 -/
noncomputable def projectLatlonN (k : Core) (N : Nat) (v : Nat → P3) (q : Nat → P2) : Nat → P2 :=
  loopWrite N (fun i => i) (fun i => (latlon k (v i)).q) q
/-- the `dq_dv` array of all the `mrcal_project_...()`: rows 2*i, 2*i+1 belong to point i -/
noncomputable def gradN (f : P3 → Proj) (N : Nat) (v : Nat → P3) (dq : Nat → P3) : Nat → P3 :=
  (List.range N).foldl (fun out i => fun j =>
    if j = 2 * i + 1 then (f (v i)).dqy else if j = 2 * i + 0 then (f (v i)).dqx else out j) dq
/-- the `v` array of the `mrcal_unproject_...()` -/
noncomputable def unprojectN (f : P2 → Unproj) (N : Nat) (q : Nat → P2) (v : Nat → P3) : Nat → P3 :=
  loopWrite N (fun i => i) (fun i => (f (q i)).v) v

end Mrcal.Cam
