import Verif.Model.OpenCV
import Mathlib.Analysis.SpecialFunctions.Trigonometric.Inverse
/-
LENSMODEL_CAHVOR: project_cahvor() mrcal.c:1067-1244. The tail (distorted point to pixel, and the gradients of that) is shared
with LENSMODEL_CAHVORE.
-/
namespace Mrcal.Cam

/-- the optical axis and its two gradients: mrcal.c:1106-1119 -/
noncomputable def cahvorO (alpha beta : ℝ) : P3 :=
  ⟨Real.sin alpha * Real.cos beta, Real.sin beta, Real.cos alpha * Real.cos beta⟩
noncomputable def cahvorDoDalpha (alpha beta : ℝ) : P3 :=
  ⟨Real.cos alpha * Real.cos beta, 0, -Real.sin alpha * Real.cos beta⟩
noncomputable def cahvorDoDbeta (alpha beta : ℝ) : P3 :=
  ⟨-Real.sin alpha * Real.sin beta, Real.cos beta, -Real.cos alpha * Real.sin beta⟩

/-- `dot_vec(3,...)` -/
def dot3 (a b : P3) : ℝ := a.x * b.x + a.y * b.y + a.z * b.z

/-- the distorted point, with its gradients: `dp` is `dpdistorted_dpcam` (rows), `dk` is `dpdistorted_ddistortion` (columns) -/
structure Distorted where
  p : P3
  dp : P3 × P3 × P3
  dk : List P3

/-- what is computed before the loop over the coordinates: mrcal.c:1121-1139 -/
structure CahvorState where
  omega : ℝ
  domega_dalpha : ℝ
  domega_dbeta : ℝ
  tau : ℝ
  dmu_dxyz : P3
  mu : ℝ
  /-- `s__dmu_dalphabeta__domega_dalphabeta` -/
  sdmu : ℝ

/-- mrcal.c:1121-1139. `d` is alpha,beta,r0,r1,r2 -/
noncomputable def cahvorState (d : Nat → ℝ) (p : P3) : CahvorState :=
  let o := cahvorO (d 0) (d 1)
  let norm2p := dot3 p p
  let omega := dot3 p o
  let omega_recip := 1.0 / omega
  let tau := norm2p * omega_recip * omega_recip - 1.0
  let sdtau := -2.0 * norm2p * omega_recip * omega_recip * omega_recip
  let dmu_dtau := d 3 + 2.0 * tau * d 4
  { omega := omega
    domega_dalpha := dot3 p (cahvorDoDalpha (d 0) (d 1))
    domega_dbeta := dot3 p (cahvorDoDbeta (d 0) (d 1))
    tau := tau
    dmu_dxyz := ⟨dmu_dtau * (2.0 * p.x * omega_recip * omega_recip + sdtau * o.x),
                 dmu_dtau * (2.0 * p.y * omega_recip * omega_recip + sdtau * o.y),
                 dmu_dtau * (2.0 * p.z * omega_recip * omega_recip + sdtau * o.z)⟩
    mu := d 2 + tau * d 3 + tau * tau * d 4
    sdmu := dmu_dtau * sdtau }

/-- one coordinate of `dpdistorted_ddistortion`, all columns: mrcal.c:1146-1168. `pi`, `oi`, `dai`, `dbi` are `p->xyz[i]`, `o[i]`, `do_dalpha[i]`,
`do_dbeta[i]` -/
noncomputable def cahvorDk1 (s : CahvorState) (pi oi dai dbi : ℝ) : List ℝ :=
  let m0 := s.sdmu * s.domega_dalpha
  let m1 := s.sdmu * s.domega_dbeta
  let m2 := 1.0
  let m3 := s.tau
  let m4 := s.tau * s.tau
  [pi * m0 - m0 * s.omega * oi - s.mu * s.domega_dalpha * oi - s.mu * s.omega * dai,
   pi * m1 - m1 * s.omega * oi - s.mu * s.domega_dbeta * oi - s.mu * s.omega * dbi,
   pi * m2 - m2 * s.omega * oi,
   pi * m3 - m3 * s.omega * oi,
   pi * m4 - m4 * s.omega * oi]

/-- one row of `dpdistorted_dpcam`: mrcal.c:1170-1175. `e` is 1 on the diagonal, 0 elsewhere -/
noncomputable def cahvorDp1 (s : CahvorState) (o : P3) (pi oi : ℝ) (e : P3) : P3 :=
  ⟨e.x * (s.mu + 1.0) + (pi - s.omega * oi) * s.dmu_dxyz.x - s.mu * oi * o.x,
   e.y * (s.mu + 1.0) + (pi - s.omega * oi) * s.dmu_dxyz.y - s.mu * oi * o.y,
   e.z * (s.mu + 1.0) + (pi - s.omega * oi) * s.dmu_dxyz.z - s.mu * oi * o.z⟩

/-- the whole distortion: mrcal.c:1144-1178 -/
noncomputable def cahvorDistort (d : Nat → ℝ) (p : P3) : Distorted :=
  let s := cahvorState d p
  let o := cahvorO (d 0) (d 1)
  let da := cahvorDoDalpha (d 0) (d 1)
  let db := cahvorDoDbeta (d 0) (d 1)
  { p := ⟨p.x + s.mu * (p.x - s.omega * o.x), p.y + s.mu * (p.y - s.omega * o.y), p.z + s.mu * (p.z - s.omega * o.z)⟩
    dp := (cahvorDp1 s o p.x o.x ⟨1, 0, 0⟩, cahvorDp1 s o p.y o.y ⟨0, 1, 0⟩, cahvorDp1 s o p.z o.z ⟨0, 0, 1⟩)
    dk := List.zipWith (fun (ab : ℝ × ℝ) c => ⟨ab.1, ab.2, c⟩)
            (List.zip (cahvorDk1 s p.x o.x da.x db.x) (cahvorDk1 s p.y o.y da.y db.y))
            (cahvorDk1 s p.z o.z da.z db.z) }

/-- row vector times 3x3 matrix: `mul_genN3_gen33_vout` -/
def rowMul (r : P3) (M : P3 × P3 × P3) : P3 :=
  ⟨r.x * M.1.x + r.y * M.2.1.x + r.z * M.2.2.x,
   r.x * M.1.y + r.y * M.2.1.y + r.z * M.2.2.y,
   r.x * M.1.z + r.y * M.2.1.z + r.z * M.2.2.z⟩

/-- from the distorted point to the pixel: mrcal.c:1183-1190 -/
noncomputable def distortedQ (c : Core) (pd : P3) : P2 :=
  let pz_recip := 1 / pd.z
  ⟨pd.x * pz_recip * c.fx + c.cx, pd.y * pz_recip * c.fy + c.cy⟩

/-- `dq_dpundistorted`: mrcal.c:1192-1202 -/
noncomputable def distortedDp (c : Core) (D : Distorted) : P3 × P3 :=
  let pz_recip := 1 / D.p.z
  (rowMul ⟨c.fx * pz_recip, 0, -c.fx * D.p.x * pz_recip * pz_recip⟩ D.dp,
   rowMul ⟨0, c.fy * pz_recip, -c.fy * D.p.y * pz_recip * pz_recip⟩ D.dp)

/-- `dq_dintrinsics_nocore`: mrcal.c:1221-1231 -/
noncomputable def distortedDk (c : Core) (D : Distorted) : List P2 :=
  let pz_recip := 1 / D.p.z
  D.dk.map fun dd => ⟨c.fx * pz_recip * (dd.x - D.p.x * pz_recip * dd.z), c.fy * pz_recip * (dd.y - D.p.y * pz_recip * dd.z)⟩

/-- the pixel -/
noncomputable def cahvorQ (c : Core) (d : Nat → ℝ) (p : P3) : P2 := distortedQ c (cahvorDistort d p).p

end Mrcal.Cam
