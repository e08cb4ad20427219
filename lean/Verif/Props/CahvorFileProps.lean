import Verif.Model.CahvorFile
import Verif.Props.ProjectApiProps
import Verif.Props.PoseProps
import Verif.Props.CahvorProps
import Verif.Props.CahvoreProps

/-! # C88: .cahvor files mean what the CAHVOR equations say, and models survive them -/

namespace Mrcal.CahvorFile
open Mrcal.Cam Mrcal.Pose

/-! ### specification -/

/-- inner product, in space -/
def inner (a b : P3) : ℝ := a.x * b.x + a.y * b.y + a.z * b.z

/-- CAHV: the pixel of a ray d from the center C -/
noncomputable def cahv (f : File) (d : P3) : P2 := ⟨inner f.H d / inner f.A d, inner f.V d / inner f.A d⟩

/-- the axis of the distortion: O. If there isn't any: A -/
def axisOf (f : File) : P3 := f.O.getD f.A

/-- CAHVOR: the ray is moved away from the axis O (or towards it), by the polynomial R of the squared tangent of the angle off the axis. Without R: there is no distortion -/
noncomputable def distort (f : File) (d : P3) : P3 :=
  match f.R with
  | some R =>
    let O := axisOf f
    let zeta := inner d O
    let lam : P3 := ⟨d.x - zeta * O.x, d.y - zeta * O.y, d.z - zeta * O.z⟩
    let tau := inner lam lam / zeta ^ 2
    let mu := R.x + R.y * tau + R.z * tau ^ 2
    ⟨d.x + mu * lam.x, d.y + mu * lam.y, d.z + mu * lam.z⟩
  | none => d

/-- the CAHVOR equations are defined for this ray -/
def Defined (f : File) (d : P3) : Prop :=
  (f.R ≠ none → inner d (axisOf f) ≠ 0) ∧ inner f.A (distort f d) ≠ 0

/-- the intrinsics, as the projection sees them -/
def intrOf (l : List ℝ) : Int → ℝ := fun i => l.getD i.toNat 0

/-- what the model does: the pixel of a point in the reference coordinate system -/
noncomputable def modelPixel (m : CModel) (P : P3) : Option P2 :=
  lensPixel m.lens (intrOf m.intr) (transformPointRt m.pose P true)

/-- the model is valid: a value for each parameter; the orientation is a rotation; positive focal lengths -/
structure Valid (m : CModel) : Prop where
  len : (m.intr.length : Int) = m.lens.numParams
  rot : IsRot m.pose.R
  fx : 0 < m.intr.getD 0 0
  fy : 0 < m.intr.getD 1 0

/-- the lens models a .cahvor file can describe -/
def Writable : Lens → Prop
  | .pinhole => True
  | .opencv4 => True
  | .opencv5 => True
  | .opencv8 => True
  | .opencv12 => True
  | .cahvor => True
  | .cahvore lin => 0 ≤ lin
  | _ => False

/-! ### lemmas -/

theorem rot_cross {M : M3} (h : IsRot M) : cross (col2 M) (col0 M) = col1 M := by
  obtain ⟨ho, hd⟩ := h
  obtain ⟨c0, c1, c2, c01, c02, c12⟩ := ho.cols
  obtain ⟨r0, r1, r2, r01, r02, r12⟩ := ho.rows
  have hd' : M.a00 * (M.a11 * M.a22 - M.a12 * M.a21) - M.a01 * (M.a10 * M.a22 - M.a12 * M.a20) + M.a02 * (M.a10 * M.a21 - M.a11 * M.a20) = 1 := by
    rw [← hd, Matrix.det_fin_three]; simp [toMat]; ring
  -- x = c2 × c0 satisfies x·c0 = 0, x·c2 = 0, x·c1 = 1
  obtain ⟨x0, e0⟩ : ∃ x, x = M.a12 * M.a20 - M.a22 * M.a10 := ⟨_, rfl⟩
  obtain ⟨x1, e1⟩ : ∃ x, x = M.a22 * M.a00 - M.a02 * M.a20 := ⟨_, rfl⟩
  obtain ⟨x2, e2⟩ : ∃ x, x = M.a02 * M.a10 - M.a12 * M.a00 := ⟨_, rfl⟩
  have d0 : x0 * M.a00 + x1 * M.a10 + x2 * M.a20 = 0 := by rw [e0, e1, e2]; ring
  have d2 : x0 * M.a02 + x1 * M.a12 + x2 * M.a22 = 0 := by rw [e0, e1, e2]; ring
  have d1 : x0 * M.a01 + x1 * M.a11 + x2 * M.a21 = 1 := by rw [e0, e1, e2, ← hd']; ring
  have g0 : x0 = M.a01 := by
    linear_combination (-x0) * r0 - x1 * r01 - x2 * r02 + M.a00 * d0 + M.a01 * d1 + M.a02 * d2
  have g1 : x1 = M.a11 := by
    linear_combination (-x1) * r1 - x0 * r01 - x2 * r12 + M.a10 * d0 + M.a11 * d1 + M.a12 * d2
  have g2 : x2 = M.a21 := by
    linear_combination (-x2) * r2 - x0 * r02 - x1 * r12 + M.a20 * d0 + M.a21 * d1 + M.a22 * d2
  ext
  · simp only [cross, col0, col1, col2]; rw [← g0, e0]
  · simp only [cross, col0, col1, col2]; rw [← g1, e1]
  · simp only [cross, col0, col1, col2]; rw [← g2, e2]

theorem mag_sq (v : P3) : mag v * mag v = v.x * v.x + v.y * v.y + v.z * v.z := by
  unfold mag dot3
  exact Real.mul_self_sqrt (by nlinarith [mul_self_nonneg v.x, mul_self_nonneg v.y, mul_self_nonneg v.z])

theorem mag_nonneg (v : P3) : 0 ≤ mag v := Real.sqrt_nonneg _

theorem mag_of_sq {v : P3} {k : ℝ} (hk : 0 ≤ k) (h : v.x * v.x + v.y * v.y + v.z * v.z = k * k) : mag v = k := by
  unfold mag dot3; rw [h, Real.sqrt_mul_self hk]

theorem smul_one (v : P3) : smul 1 v = v := by ext <;> simp [smul]

/-- a unit vector -/
theorem axis_read (o : P3) (h : o.x * o.x + o.y * o.y + o.z * o.z = 1) : cahvorO (atan2 o.x o.z) (Real.arcsin o.y) = o := by
  have hy : -1 ≤ o.y ∧ o.y ≤ 1 := by
    constructor <;> nlinarith [mul_self_nonneg o.x, mul_self_nonneg o.z]
  have s : Real.sin (Real.arcsin o.y) = o.y := Real.sin_arcsin hy.1 hy.2
  have c : Real.cos (Real.arcsin o.y) = Real.sqrt (o.z * o.z + o.x * o.x) := by
    rw [Real.cos_arcsin]; congr 1; nlinarith
  by_cases h0 : o.x ≠ 0 ∨ o.z ≠ 0
  · obtain ⟨e1, e2⟩ := atan2_polar o.x o.z h0
    ext
    · simp only [cahvorO]; rw [c, mul_comm]; exact e2
    · simp only [cahvorO]; exact s
    · simp only [cahvorO]; rw [c, mul_comm]; exact e1
  · have hx : o.x = 0 := by by_contra hh; exact h0 (Or.inl hh)
    have hz : o.z = 0 := by by_contra hh; exact h0 (Or.inr hh)
    rw [hx, hz] at c
    simp at c
    ext
    · simp only [cahvorO]; rw [c, hx]; simp
    · simp only [cahvorO]; exact s
    · simp only [cahvorO]; rw [c, hz]; simp

/-- the point the camera sees -/
theorem camera_point (T : Rt) (P : P3) :
    transformPointRt T P true = ⟨inner (col0 T.R) (subP P T.t), inner (col1 T.R) (subP P T.t), inner (col2 T.R) (subP P T.t)⟩ := by
  simp only [transformPointRt, rotatePointR, mulVec, transpose, inner, col0, col1, col2]
  ext <;> simp

/-- orthogonal coordinates -/
theorem expand {M : M3} (h : Orth M) (d : P3) :
    d = ⟨M.a00 * inner (col0 M) d + M.a01 * inner (col1 M) d + M.a02 * inner (col2 M) d,
         M.a10 * inner (col0 M) d + M.a11 * inner (col1 M) d + M.a12 * inner (col2 M) d,
         M.a20 * inner (col0 M) d + M.a21 * inner (col1 M) d + M.a22 * inner (col2 M) d⟩ := by
  obtain ⟨r0, r1, r2, r01, r02, r12⟩ := h.rows
  ext
  · simp only [inner, col0, col1, col2]
    linear_combination (-d.x) * r0 - d.y * r01 - d.z * r02
  · simp only [inner, col0, col1, col2]
    linear_combination (-d.y) * r1 - d.x * r01 - d.z * r12
  · simp only [inner, col0, col1, col2]
    linear_combination (-d.z) * r2 - d.x * r02 - d.y * r12

theorem inner_rot {M : M3} (h : Orth M) (d e : P3) :
    inner d e = inner (col0 M) d * inner (col0 M) e + inner (col1 M) d * inner (col1 M) e + inner (col2 M) d * inner (col2 M) e := by
  obtain ⟨r0, r1, r2, r01, r02, r12⟩ := h.rows
  simp only [inner, col0, col1, col2]
  linear_combination (-d.x * e.x) * r0 - (d.y * e.y) * r1 - d.z * e.z * r2 - (d.x * e.y + d.y * e.x) * r01 - (d.x * e.z + d.z * e.x) * r02 - (d.y * e.z + d.z * e.y) * r12

/-- the lens depends on the two angles through the axis only -/
theorem cahvore_axis (c : Core) (lin : ℝ) (d d' : Nat → ℝ) (p : P3) (ho : cahvorO (d 0) (d 1) = cahvorO (d' 0) (d' 1)) (h : ∀ i, 2 ≤ i → i < 8 → d i = d' i) :
    cahvoreQ c lin d p = cahvoreQ c lin d' p := by
  have e : (cahvoreO (initK d none 0) (initK d none 1) : Mrcal.AD.Vec3 0) = cahvoreO (initK d' none 0) (initK d' none 1) := by
    have e1 := cahvoreO_value (N := 0) d none
    have e2 := cahvoreO_value (N := 0) d' none
    rw [ho, ← e2] at e1
    have ex : ∀ (a b : Mrcal.AD.Val 0), a.x = b.x → a = b := by
      intro a b hab
      cases a; cases b
      simp only at hab
      subst hab
      congr
      funext i; exact i.elim0
    have ev : ∀ (a b : Mrcal.AD.Vec3 0), a.value = b.value → a = b := by
      intro a b hab
      obtain ⟨a1, a2, a3⟩ := a
      obtain ⟨b1, b2, b3⟩ := b
      have h1 := congrArg P3.x hab
      have h2 := congrArg P3.y hab
      have h3 := congrArg P3.z hab
      rw [ex a1 b1 h1, ex a2 b2 h2, ex a3 b3 h3]
    exact ev _ _ e1
  have k : ∀ i, 2 ≤ i → i < 8 → (initK d none i : Mrcal.AD.Val 0) = initK d' none i := by
    intro i h1 h2
    simp only [initK]; rw [h i h1 h2]
  unfold cahvoreQ projectCahvoreInternals
  simp only
  unfold cahvoreInternals
  rw [e, k 2 (by omega) (by omega), k 3 (by omega) (by omega), k 4 (by omega) (by omega), k 5 (by omega) (by omega), k 6 (by omega) (by omega), k 7 (by omega) (by omega)]

theorem cahvor_axis (c : Core) (d d' : Nat → ℝ) (p : P3) (ho : cahvorO (d 0) (d 1) = cahvorO (d' 0) (d' 1)) (h : ∀ i, 2 ≤ i → i < 5 → d i = d' i) :
    cahvorQ c d p = cahvorQ c d' p := by
  unfold cahvorQ cahvorDistort cahvorState
  simp only
  rw [ho, h 2 (by omega) (by omega), h 3 (by omega) (by omega), h 4 (by omega) (by omega)]

/-! ### the equations -/

/-- the file describes this orientation and these focal lengths, center pixel -/
structure Fits (f : File) (M : M3) (c : Core) : Prop where
  A : f.A = col2 M
  H : f.H = addP (smul c.fx (col0 M)) (smul c.cx (col2 M))
  V : f.V = addP (smul c.fy (col1 M)) (smul c.cy (col2 M))

/-- camera coordinates of a direction -/
def camCoords (M : M3) (d : P3) : P3 := ⟨inner (col0 M) d, inner (col1 M) d, inner (col2 M) d⟩

theorem pixel_x {f : File} {M : M3} {c : Core} (hA : f.A = col2 M) (hH : f.H = addP (smul c.fx (col0 M)) (smul c.cx (col2 M))) (d : P3) (hd : inner f.A d ≠ 0) :
    (distortedQ c (camCoords M d)).x = (cahv f d).x := by
  have hz : inner (col2 M) d ≠ 0 := by rw [← hA]; exact hd
  unfold cahv
  rw [hA, hH]
  have e1 : inner (addP (smul c.fx (col0 M)) (smul c.cx (col2 M))) d = c.fx * inner (col0 M) d + c.cx * inner (col2 M) d := by
    simp only [inner, addP, smul]; ring
  rw [e1]
  simp only [distortedQ, camCoords]
  field_simp

theorem pixel_cahv {f : File} {M : M3} {c : Core} (h : Fits f M c) (d : P3) (hd : inner f.A d ≠ 0) :
    distortedQ c (camCoords M d) = cahv f d := by
  have hz : inner (col2 M) d ≠ 0 := by rw [← h.A]; exact hd
  unfold cahv
  rw [h.A, h.H, h.V]
  have e1 : inner (addP (smul c.fx (col0 M)) (smul c.cx (col2 M))) d = c.fx * inner (col0 M) d + c.cx * inner (col2 M) d := by
    simp only [inner, addP, smul]; ring
  have e2 : inner (addP (smul c.fy (col1 M)) (smul c.cy (col2 M))) d = c.fy * inner (col1 M) d + c.cy * inner (col2 M) d := by
    simp only [inner, addP, smul]; ring
  rw [e1, e2]
  simp only [distortedQ, camCoords]
  ext
  · simp only []; field_simp
  · simp only []; field_simp

theorem distort_cam {M : M3} (h : Orth M) (f : File) (O R : P3) (hO : axisOf f = O) (hR : f.R = some R) (k : Nat → ℝ)
    (ho : cahvorO (k 0) (k 1) = camCoords M O) (h2 : k 2 = R.x) (h3 : k 3 = R.y) (h4 : k 4 = R.z) (d : P3) (hd : inner d O ≠ 0) :
    (cahvorDistort k (camCoords M d)).p = camCoords M (distort f d) := by
  have u : inner O O = 1 := by
    have := cahvorO_unit (k 0) (k 1)
    rw [ho] at this
    rw [inner_rot h]
    simpa [dot3, camCoords] using this
  have w : dot3 (camCoords M d) (camCoords M O) = inner d O := by
    rw [inner_rot h]; simp [dot3, camCoords]
  have n : dot3 (camCoords M d) (camCoords M d) = inner d d := by
    rw [inner_rot h]; simp [dot3, camCoords]
  obtain ⟨zeta, hz⟩ : ∃ z, z = inner d O := ⟨_, rfl⟩
  have hl : inner (⟨d.x - zeta * O.x, d.y - zeta * O.y, d.z - zeta * O.z⟩ : P3) ⟨d.x - zeta * O.x, d.y - zeta * O.y, d.z - zeta * O.z⟩ = inner d d - zeta * zeta := by
    have e : inner (⟨d.x - zeta * O.x, d.y - zeta * O.y, d.z - zeta * O.z⟩ : P3) ⟨d.x - zeta * O.x, d.y - zeta * O.y, d.z - zeta * O.z⟩ = inner d d - 2 * zeta * inner d O + zeta * zeta * inner O O := by
      simp only [inner]; ring
    rw [e, u, ← hz]; ring
  have hzne : zeta ≠ 0 := by rw [hz]; exact hd
  have hzne' : inner d O ≠ 0 := hd
  have ht : inner d d * (1.0 / zeta) * (1.0 / zeta) - 1.0 = (inner d d - zeta * zeta) / zeta ^ 2 := by
    norm_num
    field_simp
  have hds : distort f d = (let tau := (inner d d - zeta * zeta) / zeta ^ 2; let mu := R.x + R.y * tau + R.z * tau ^ 2;
      ⟨d.x + mu * (d.x - zeta * O.x), d.y + mu * (d.y - zeta * O.y), d.z + mu * (d.z - zeta * O.z)⟩) := by
    unfold distort
    rw [hR]
    simp only
    rw [hO, ← hz, hl]
  rw [hds]
  unfold cahvorDistort cahvorState
  simp only
  rw [ho, w, n, ← hz, ht, h2, h3, h4]
  generalize (inner d d - zeta * zeta) / zeta ^ 2 = tau
  simp only [camCoords, inner]
  ext
  · simp only []; ring
  · simp only []; ring
  · simp only []; ring

/-! ### writing -/

theorem write_fits {m : CModel} {f : File} (hw : write m = some f) :
    f.C = m.pose.t ∧ Fits f m.pose.R (coreOf (intrOf m.intr)) ∧ f.dims = m.dims ∧ f.region = m.region ∧ f.aDigits = false := by
  unfold write at hw
  split at hw
  case _ | _ | _ | _ | _ | _ => injection hw with hw; subst hw; exact ⟨rfl, ⟨rfl, rfl, rfl⟩, rfl, rfl, rfl⟩
  case _ =>
    split at hw
    · exact absurd hw (by simp)
    · injection hw with hw; subst hw; exact ⟨rfl, ⟨rfl, rfl, rfl⟩, rfl, rfl, rfl⟩
  all_goals exact absurd hw (by simp)

theorem camCoords_mulVec {M : M3} (h : Orth M) (o : P3) : camCoords M (mulVec M o) = o := by
  obtain ⟨c0, c1, c2, c01, c02, c12⟩ := h.cols
  ext
  · simp only [camCoords, mulVec, inner, col0]
    linear_combination o.x * c0 + o.y * c01 + o.z * c02
  · simp only [camCoords, mulVec, inner, col1]
    linear_combination o.y * c1 + o.x * c01 + o.z * c12
  · simp only [camCoords, mulVec, inner, col2]
    linear_combination o.z * c2 + o.x * c02 + o.y * c12

theorem coords_vecMul (M : M3) (O : P3) : vecMul O M = camCoords M O := by
  ext <;> simp [vecMul, camCoords, inner, col0, col1, col2]

theorem camera_coords (T : Rt) (P : P3) : transformPointRt T P true = camCoords T.R (subP P T.t) := camera_point T P

theorem pinhole_distorted (c : Core) (p : P3) : (pinhole c p).q = distortedQ c p := rfl

/-- **C88**: What is written obeys the CAHVOR equations: for a PINHOLE or CAHVOR model, the pixel the model reports for a point P is H·d/A·d, V·d/A·d for the ray d from C
to P, distorted around O by R. This is for each point where these are defined -/
theorem written_equations (m : CModel) (hv : Valid m) (f : File) (hw : write m = some f) (hl : m.lens = .pinhole ∨ m.lens = .cahvor)
    (P : P3) (hd : Defined f (subP P f.C)) : modelPixel m P = some (cahv f (distort f (subP P f.C))) := by
  obtain ⟨hC, hF, -, -, -⟩ := write_fits hw
  obtain ⟨hd1, hd2⟩ := hd
  unfold modelPixel
  rw [camera_coords, ← hC]
  rcases hl with hl | hl
  · have : distort f (subP P f.C) = subP P f.C := by
      unfold write at hw
      rw [hl] at hw
      simp only [Option.some.injEq] at hw
      subst hw; rfl
    rw [this] at hd2 ⊢
    rw [hl]
    simp only [lensPixel]
    rw [pinhole_distorted, pixel_cahv hF _ hd2]
  · unfold write at hw
    rw [hl] at hw
    simp only [Option.some.injEq] at hw
    have hO : axisOf f = writeO m := by rw [← hw]; rfl
    have hR : f.R = some (writeR m) := by rw [← hw]
    rw [hl]
    simp only [lensPixel]
    unfold cahvorQ
    rw [distort_cam hv.rot.1 f (writeO m) (writeR m) hO hR (nocoreOf (intrOf m.intr)) ?_ rfl rfl rfl _ (hO ▸ hd1 (by rw [hR]; simp)), pixel_cahv hF _ hd2]
    unfold writeO
    rw [camCoords_mulVec hv.rot.1]
    rfl

/-- **C88**: exactly the models a .cahvor file can describe are written: PINHOLE, OPENCV, CAHVOR, and CAHVORE with a linearity that isn't negative -/
theorem write_succeeds_iff (m : CModel) : (write m).isSome ↔ Writable m.lens := by
  unfold write Writable
  cases hl : m.lens <;> simp

/-! ### reading -/

theorem smul_mag {v : P3} (h : mag v ≠ 0) : inner (smul (1 / mag v) v) (smul (1 / mag v) v) = 1 := by
  have e := mag_sq v
  simp only [inner, smul]
  have : 1 / mag v * v.x * (1 / mag v * v.x) + 1 / mag v * v.y * (1 / mag v * v.y) + 1 / mag v * v.z * (1 / mag v * v.z) = (v.x * v.x + v.y * v.y + v.z * v.z) / (mag v * mag v) := by
    field_simp
  rw [this, ← e, div_self (mul_ne_zero h h)]

theorem smul_inv {k : ℝ} (h : k ≠ 0) (v : P3) : smul k (smul (1 / k) v) = v := by
  ext <;> simp only [smul] <;> field_simp

theorem orth_of_cols {M : M3} (c0 : inner (col0 M) (col0 M) = 1) (c1 : inner (col1 M) (col1 M) = 1) (c2 : inner (col2 M) (col2 M) = 1)
    (c01 : inner (col0 M) (col1 M) = 0) (c02 : inner (col0 M) (col2 M) = 0) (c12 : inner (col1 M) (col2 M) = 0) : Orth M := by
  have h : (toMat M).transpose * toMat M = 1 := by
    simp only [inner, col0, col1, col2] at *
    ext i j
    fin_cases i <;> fin_cases j <;> simp [toMat, Matrix.mul_apply, Fin.sum_univ_three] <;> linarith
  exact mul_eq_one_comm.mp h

/-- what the orientation is made of -/
theorem readR_rot {f : File} (h1 : mag f.A ≠ 0) (h2 : mag (perp (smul (1 / mag f.A) f.A) f.H) ≠ 0) : IsRot (readR f) := by
  obtain ⟨A, hA⟩ : ∃ A, A = smul (1 / mag f.A) f.A := ⟨_, rfl⟩
  have uA := smul_mag h1
  rw [← hA] at uA h2
  have uH := smul_mag h2
  have oH : inner A (perp A f.H) = 0 := by
    have : inner A (perp A f.H) = inner A f.H - dot3 f.H A * inner A A := by simp only [inner, perp, subP, smul, dot3]; ring
    rw [this, uA]; simp only [inner, dot3]; ring
  obtain ⟨Hp, hH⟩ : ∃ Hp, Hp = smul (1 / mag (perp A f.H)) (perp A f.H) := ⟨_, rfl⟩
  have oH' : inner A Hp = 0 := by
    rw [hH]
    have : inner A (smul (1 / mag (perp A f.H)) (perp A f.H)) = 1 / mag (perp A f.H) * inner A (perp A f.H) := by simp only [inner, smul]; ring
    rw [this, oH]; ring
  rw [← hH] at uH
  have e : readR f = ⟨Hp.x, (cross A Hp).x, A.x, Hp.y, (cross A Hp).y, A.y, Hp.z, (cross A Hp).z, A.z⟩ := by
    unfold readR
    simp only
    rw [← hA, ← hH]
  rw [e]
  simp only [inner] at uA uH oH'
  have lag : inner (cross A Hp) (cross A Hp) = 1 := by
    simp only [inner, cross]
    linear_combination (A.x * A.x + A.y * A.y + A.z * A.z) * uH + uA - (A.x * Hp.x + A.y * Hp.y + A.z * Hp.z) * oH'
  constructor
  · apply orth_of_cols
    · simpa [inner, col0] using uH
    · simpa [inner, col1] using lag
    · simpa [inner, col2] using uA
    · simp only [inner, col0, col1, cross]; ring
    · simp only [inner, col0, col2]; linarith
    · simp only [inner, col1, col2, cross]; ring
  · rw [Matrix.det_fin_three]
    have lag' := lag
    simp only [inner, cross] at lag'
    simp [toMat, cross]
    linear_combination lag'

/-- what a successful read says -/
theorem read_some {f : File} {m : CModel} (hr : read f = some m) :
    f.region ≠ some [] ∧ f.aDigits = false ∧ mag f.A ≠ 0 ∧ mag (perp (smul (1 / mag f.A) f.A) f.H) ≠ 0 ∧
      ∃ lin L k, linearity f = some lin ∧ readLens f lin = some (L, k) ∧ ((readCore f ++ k).length : Int) = L.numParams ∧
        m = { lens := L, intr := readCore f ++ k, pose := ⟨readR f, f.C⟩, dims := f.dims, region := f.region } := by
  unfold read at hr
  split at hr
  · exact absurd hr (by simp)
  rename_i h0
  split at hr
  · exact absurd hr (by simp)
  rename_i lin hlin
  split at hr
  · exact absurd hr (by simp)
  rename_i hdg
  split at hr
  · exact absurd hr (by simp)
  rename_i hz
  have hz1 : mag f.A ≠ 0 := fun e => hz (Or.inl e)
  have hz2 : mag (perp (smul (1 / mag f.A) f.A) f.H) ≠ 0 := fun e => hz (Or.inr e)
  split at hr
  · exact absurd hr (by simp)
  rename_i L k hL
  split at hr
  · exact absurd hr (by simp)
  rename_i hn
  injection hr with hr
  exact ⟨h0, by simpa using hdg, hz1, hz2, lin, L, k, hlin, hL, by simpa using hn, hr.symm⟩

/-- **C88**: Whatever is in the file: if it can be read, the camera is at C, its optical axis points along A, its x axis is the part of H orthogonal to A, and its axes are
orthonormal and right-handed -/
theorem read_pose (f : File) (m : CModel) (hr : read f = some m) :
    m.pose.t = f.C ∧ IsRot m.pose.R ∧
      (∃ a, 0 < a ∧ f.A = smul a (col2 m.pose.R)) ∧ (∃ fx cx, 0 < fx ∧ f.H = addP (smul fx (col0 m.pose.R)) (smul cx (col2 m.pose.R))) := by
  obtain ⟨-, -, h1, h2, lin, L, k, -, -, -, e⟩ := read_some hr
  subst e
  have hrot := readR_rot h1 h2
  refine ⟨rfl, hrot, ⟨mag f.A, lt_of_le_of_ne (mag_nonneg _) (Ne.symm h1), ?_⟩,
    ⟨mag (perp (smul (1 / mag f.A) f.A) f.H), dot3 f.H (smul (1 / mag f.A) f.A), lt_of_le_of_ne (mag_nonneg _) (Ne.symm h2), ?_⟩⟩
  · ext <;> simp only [readR, col2, smul] <;> field_simp
  · have e : smul (mag (perp (smul (1 / mag f.A) f.A) f.H)) (col0 (readR f)) = perp (smul (1 / mag f.A) f.A) f.H := by
      exact smul_inv h2 _
    have e2 : col2 (readR f) = smul (1 / mag f.A) f.A := by ext <;> simp only [readR, col2]
    show f.H = addP (smul _ (col0 (readR f))) (smul _ (col2 (readR f)))
    rw [e, e2]
    simp only [perp, addP, subP]
    ext <;> simp

/-- **Specification**: The axes are orthogonal: the parts of H and V orthogonal to A are orthogonal to each other; and (A,H,V) is right-handed -/
def Orthogonal (f : File) : Prop :=
  inner f.H f.V = inner f.H f.A * inner f.V f.A ∧
  0 < f.A.x * (f.H.y * f.V.z - f.H.z * f.V.y) + f.A.y * (f.H.z * f.V.x - f.H.x * f.V.z) + f.A.z * (f.H.x * f.V.y - f.H.y * f.V.x)

theorem mag_unit {v : P3} (h : inner v v = 1) : mag v = 1 := mag_of_sq (by norm_num) (by simpa [inner] using h)

theorem readR_cols {f : File} (hA : inner f.A f.A = 1) : col2 (readR f) = f.A ∧ col0 (readR f) = smul (1 / mag (perp f.A f.H)) (perp f.A f.H) := by
  have e := mag_unit hA
  constructor
  · ext <;> simp [readR, col2, e, smul]
  · have : smul (1 / mag f.A) f.A = f.A := by rw [e]; ext <;> simp [smul]
    unfold readR
    simp only
    rw [this]
    rfl

theorem readCore_unit {f : File} (hA : inner f.A f.A = 1) : readCore f = [mag (perp f.A f.H), mag (perp f.A f.V), inner f.H f.A, inner f.V f.A] := by
  have e := mag_unit hA
  have : smul (1 / mag f.A) f.A = f.A := by rw [e]; ext <;> simp [smul]
  unfold readCore
  simp only
  rw [this]
  rfl

theorem read_H {f : File} (hA : inner f.A f.A = 1) (h2 : mag (perp f.A f.H) ≠ 0) (k : List ℝ) :
    f.H = addP (smul (coreOf (intrOf (readCore f ++ k))).fx (col0 (readR f))) (smul (coreOf (intrOf (readCore f ++ k))).cx (col2 (readR f))) := by
  obtain ⟨e2, e0⟩ := readR_cols hA
  rw [readCore_unit hA, e2, e0]
  show f.H = addP (smul (mag (perp f.A f.H)) (smul (1 / mag (perp f.A f.H)) (perp f.A f.H))) (smul (inner f.H f.A) f.A)
  rw [smul_inv h2]
  simp only [perp, addP, subP, dot3, inner]
  ext <;> simp

theorem read_fits {f : File} (hA : inner f.A f.A = 1) (h1 : mag f.A ≠ 0) (h2 : mag (perp f.A f.H) ≠ 0) (ho : Orthogonal f) (k : List ℝ) :
    Fits f (readR f) (coreOf (intrOf (readCore f ++ k))) := by
  have hu : smul (1 / mag f.A) f.A = f.A := by rw [mag_unit hA]; ext <;> simp [smul]
  have hrot := readR_rot (f := f) h1 (by rw [hu]; exact h2)
  obtain ⟨e2, e0⟩ := readR_cols hA
  refine ⟨e2.symm, read_H hA h2 k, ?_⟩
  have hc1 := rot_cross hrot
  have hx := expand hrot.1 (perp f.A f.V)
  have z2 : inner (col2 (readR f)) (perp f.A f.V) = 0 := by
    rw [e2]
    have : inner f.A (perp f.A f.V) = inner f.A f.V - inner f.V f.A * inner f.A f.A := by simp only [inner, perp, subP, smul, dot3]; ring
    rw [this, hA]; simp only [inner]; ring
  have z0 : inner (col0 (readR f)) (perp f.A f.V) = 0 := by
    rw [e0]
    have : inner (smul (1 / mag (perp f.A f.H)) (perp f.A f.H)) (perp f.A f.V) = 1 / mag (perp f.A f.H) * (inner f.H f.V - inner f.H f.A * inner f.V f.A + inner f.H f.A * inner f.V f.A * (inner f.A f.A - 1)) := by
      simp only [inner, perp, subP, smul, dot3]; ring
    rw [this, hA, ho.1]; ring
  obtain ⟨s, hs⟩ : ∃ s, s = inner (col1 (readR f)) (perp f.A f.V) := ⟨_, rfl⟩
  rw [z0, z2, ← hs] at hx
  have hfx : 0 < mag (perp f.A f.H) := lt_of_le_of_ne (mag_nonneg _) (Ne.symm h2)
  have hspos : 0 < s := by
    rw [hs, ← hc1, e2, e0]
    have : inner (cross f.A (smul (1 / mag (perp f.A f.H)) (perp f.A f.H))) (perp f.A f.V)
        = 1 / mag (perp f.A f.H) * (f.A.x * (f.H.y * f.V.z - f.H.z * f.V.y) + f.A.y * (f.H.z * f.V.x - f.H.x * f.V.z) + f.A.z * (f.H.x * f.V.y - f.H.y * f.V.x)) := by
      simp only [inner, cross, perp, subP, smul, dot3]; ring
    rw [this]
    exact mul_pos (by positivity) ho.2
  obtain ⟨-, c1, -, -, -, -⟩ := hrot.1.cols
  have hm : mag (perp f.A f.V) = s := by
    apply mag_of_sq hspos.le
    rw [hx]
    linear_combination s * s * c1
  rw [readCore_unit hA]
  show f.V = addP (smul (mag (perp f.A f.V)) (col1 (readR f))) (smul (inner f.V f.A) (col2 (readR f)))
  rw [hm, e2]
  have hV : f.V = addP (perp f.A f.V) (smul (inner f.V f.A) f.A) := by
    simp only [perp, addP, subP, dot3, inner]; ext <;> simp
  conv_lhs => rw [hV]
  rw [hx]
  simp only [addP, smul, col1]
  ext <;> simp only [] <;> ring

/-- the distortion parameters of a CAHVOR file describe the axis O -/
theorem readAxis_axis {f : File} (hA : inner f.A f.A = 1) (h1 : mag f.A ≠ 0) (h2 : mag (perp f.A f.H) ≠ 0) (hO : ∀ O, f.O = some O → inner O O = 1) :
    cahvorO (readAxis f).1 (readAxis f).2 = camCoords (readR f) (axisOf f) := by
  have hu : smul (1 / mag f.A) f.A = f.A := by rw [mag_unit hA]; ext <;> simp [smul]
  have hrot := readR_rot (f := f) h1 (by rw [hu]; exact h2)
  obtain ⟨e2, e0⟩ := readR_cols hA
  unfold readAxis axisOf
  cases hc : f.O with
  | none =>
    simp only [Option.getD_none]
    obtain ⟨c0, c1, c2, c01, c02, c12⟩ := hrot.1.cols
    rw [show camCoords (readR f) f.A = camCoords (readR f) (col2 (readR f)) from by rw [e2]]
    ext
    · simp [cahvorO, camCoords, inner, col0, col2]; linarith
    · simp [cahvorO, camCoords, inner, col1, col2]; linarith
    · simp [cahvorO, camCoords, inner, col2]; linarith
  | some O =>
    simp only [Option.getD_some]
    rw [coords_vecMul]
    apply axis_read
    have := inner_rot hrot.1 O O
    rw [hO O hc] at this
    simp only [camCoords]
    linarith

theorem cahvor_R0 (c : Core) (d : Nat → ℝ) (p : P3) (h : ∀ i, 2 ≤ i → i < 5 → d i = 0) : cahvorQ c d p = (pinhole c p).q := by
  rw [pinhole_distorted]
  unfold cahvorQ cahvorDistort cahvorState
  simp only
  rw [h 2 (by omega) (by omega), h 3 (by omega) (by omega), h 4 (by omega) (by omega)]
  congr 1
  ext <;> simp

/-- which lens -/
theorem readLens_cases {f : File} {lin : Option ℚ} {L : Lens} {k : List ℝ} (h : readLens f lin = some (L, k)) (hL : L = .pinhole ∨ L = .cahvor) :
    (L = .pinhole ∧ k = [] ∧ (f.R = none ∨ ∃ R, f.R = some R ∧ mag R < 1e-8)) ∨
    (L = .cahvor ∧ ∃ R, f.R = some R ∧ ¬ mag R < 1e-8 ∧ k = [(readAxis f).1, (readAxis f).2, R.x, R.y, R.z]) := by
  unfold readLens at h
  cases hf : fallback f with
  | some x =>
    rw [hf] at h
    simp only [Option.some.injEq] at h
    subst h
    unfold fallback at hf
    split at hf <;> simp only [Option.some.injEq, Prod.mk.injEq, reduceCtorEq] at hf
    · obtain ⟨e, -⟩ := hf; subst e; rcases hL with hL | hL <;> exact absurd hL (by simp)
    · obtain ⟨e, -⟩ := hf; subst e; rcases hL with hL | hL <;> exact absurd hL (by simp)
    · obtain ⟨e, -⟩ := hf; subst e; rcases hL with hL | hL <;> exact absurd hL (by simp)
    · obtain ⟨e, -⟩ := hf; subst e; rcases hL with hL | hL <;> exact absurd hL (by simp)
    · obtain ⟨e, e'⟩ := hf; subst e; subst e'
      left
      exact ⟨rfl, rfl, Or.inl (by assumption)⟩
  | none =>
    rw [hf] at h
    cases lin with
    | some l =>
      simp only at h
      split at h
      · simp only [Option.some.injEq, Prod.mk.injEq] at h
        obtain ⟨e, -⟩ := h; subst e; rcases hL with hL | hL <;> exact absurd hL (by simp)
      · exact absurd h (by simp)
    | none =>
      simp only at h
      split at h
      · exact absurd h (by simp)
      · rename_i hR
        simp only [Option.some.injEq, Prod.mk.injEq] at h
        exact Or.inl ⟨h.1.symm, h.2.symm, Or.inl hR⟩
      · rename_i R _ hR
        split at h
        · simp only [Option.some.injEq, Prod.mk.injEq] at h
          rename_i hlt
          exact Or.inl ⟨h.1.symm, h.2.symm, Or.inr ⟨R, hR, hlt⟩⟩
        · simp only [Option.some.injEq, Prod.mk.injEq] at h
          rename_i hlt
          exact Or.inr ⟨h.1.symm, R, hR, hlt, h.2.symm⟩

/-- **C88**: A PINHOLE or CAHVOR model read from a file obeys the CAHVOR equations of this file. A must be a unit vector (it is normalized otherwise), so must O, and R must either be 0 or
not be tiny. Then the horizontal coordinate is right always. And so is the vertical coordinate, if the axes in the file are orthogonal (otherwise the library replaces V, with a
warning) -/
theorem read_equations (f : File) (m : CModel) (hr : read f = some m) (hl : m.lens = .pinhole ∨ m.lens = .cahvor)
    (hA : inner f.A f.A = 1) (hO : ∀ O, f.O = some O → inner O O = 1) (hR : ∀ R, f.R = some R → R = ⟨0, 0, 0⟩ ∨ (1e-8 : ℝ) ^ 2 ≤ inner R R)
    (P : P3) (hd : Defined f (subP P f.C)) :
    ∃ q, modelPixel m P = some q ∧ q.x = (cahv f (distort f (subP P f.C))).x ∧ (Orthogonal f → q.y = (cahv f (distort f (subP P f.C))).y) := by
  obtain ⟨-, -, h1, h2, lin, L, k, -, hL, -, e⟩ := read_some hr
  have hu : smul (1 / mag f.A) f.A = f.A := by rw [mag_unit hA]; ext <;> simp [smul]
  have hrot := readR_rot h1 h2
  rw [hu] at h2
  obtain ⟨e2, e0⟩ := readR_cols hA
  obtain ⟨hd1, hd2⟩ := hd
  subst e
  simp only at hl
  have key : lensPixel L (intrOf (readCore f ++ k)) (camCoords (readR f) (subP P f.C)) =
      some (distortedQ (coreOf (intrOf (readCore f ++ k))) (camCoords (readR f) (distort f (subP P f.C)))) := by
    rcases readLens_cases hL hl with ⟨e, ek, hc⟩ | ⟨e, R, hRR, hn, ek⟩
    · subst e
      have : distort f (subP P f.C) = subP P f.C := by
        unfold distort
        rcases hc with hc | ⟨R, hc, hlt⟩
        · rw [hc]
        · rw [hc]
          have hR0 : R = ⟨0, 0, 0⟩ := by
            rcases hR R hc with h | h
            · exact h
            · exfalso
              have : inner R R = mag R * mag R := by rw [mag_sq]; rfl
              rw [this] at h
              have hn := mag_nonneg R
              nlinarith
          rw [hR0]
          ext <;> simp
      rw [this]
      simp only [lensPixel]
      rw [pinhole_distorted]
    · subst e
      simp only [lensPixel]
      unfold cahvorQ
      rw [distort_cam hrot.1 f (axisOf f) R rfl hRR (nocoreOf (intrOf (readCore f ++ k))) ?_ ?_ ?_ ?_ _ (hd1 (by rw [hRR]; simp))]
      · rw [← readAxis_axis hA h1 h2 hO, readCore_unit hA, ek]; rfl
      · rw [readCore_unit hA, ek]; rfl
      · rw [readCore_unit hA, ek]; rfl
      · rw [readCore_unit hA, ek]; rfl
  refine ⟨_, ?_, pixel_x e2.symm (read_H hA h2 k) _ hd2, fun ho => ?_⟩
  · unfold modelPixel
    rw [camera_coords]
    exact key
  · rw [pixel_cahv (read_fits hA h1 h2 ho k) _ hd2]

/-! ### writing, and reading that -/

theorem fits_read {f : File} {M : M3} {c : Core} (h : IsRot M) (hF : Fits f M c) (hx : 0 < c.fx) (hy : 0 < c.fy) :
    inner f.A f.A = 1 ∧ mag f.A ≠ 0 ∧ mag (perp f.A f.H) ≠ 0 ∧ readR f = M ∧ readCore f = [c.fx, c.fy, c.cx, c.cy] := by
  obtain ⟨c0, c1, c2, c01, c02, c12⟩ := h.1.cols
  have hA : inner f.A f.A = 1 := by rw [hF.A]; simpa [inner, col2] using c2
  have eA := mag_unit hA
  have iH : inner f.H f.A = c.cx := by
    rw [hF.H, hF.A]; simp only [inner, addP, smul, col0, col2]; linear_combination c.fx * c02 + c.cx * c2
  have iV : inner f.V f.A = c.cy := by
    rw [hF.V, hF.A]; simp only [inner, addP, smul, col1, col2]; linear_combination c.fy * c12 + c.cy * c2
  have pH : perp f.A f.H = smul c.fx (col0 M) := by
    have : perp f.A f.H = subP f.H (smul (inner f.H f.A) f.A) := rfl
    rw [this, iH, hF.H, hF.A]; simp only [subP, addP, smul]; ext <;> simp
  have pV : perp f.A f.V = smul c.fy (col1 M) := by
    have : perp f.A f.V = subP f.V (smul (inner f.V f.A) f.A) := rfl
    rw [this, iV, hF.V, hF.A]; simp only [subP, addP, smul]; ext <;> simp
  have mH : mag (perp f.A f.H) = c.fx := by
    rw [pH]; apply mag_of_sq hx.le; simp only [smul, col0]; linear_combination c.fx * c.fx * c0
  have mV : mag (perp f.A f.V) = c.fy := by
    rw [pV]; apply mag_of_sq hy.le; simp only [smul, col1]; linear_combination c.fy * c.fy * c1
  obtain ⟨e2, e0⟩ := readR_cols hA
  have hne : mag (perp f.A f.H) ≠ 0 := by rw [mH]; exact hx.ne'
  have k2 : col2 (readR f) = col2 M := by rw [e2, hF.A]
  have k0 : col0 (readR f) = col0 M := by
    rw [e0, mH, pH]; ext <;> simp only [smul] <;> field_simp
  have hu : smul (1 / mag f.A) f.A = f.A := by rw [mag_unit hA]; ext <;> simp [smul]
  have hrot := readR_rot (f := f) (by rw [eA]; norm_num) (by rw [hu]; exact hne)
  have k1 : col1 (readR f) = col1 M := by rw [← rot_cross hrot, ← rot_cross h, k0, k2]
  refine ⟨hA, by rw [eA]; norm_num, hne, ?_, ?_⟩
  · ext
    · exact congrArg P3.x k0
    · exact congrArg P3.x k1
    · exact congrArg P3.x k2
    · exact congrArg P3.y k0
    · exact congrArg P3.y k1
    · exact congrArg P3.y k2
    · exact congrArg P3.z k0
    · exact congrArg P3.z k1
    · exact congrArg P3.z k2
  · rw [readCore_unit hA, mH, mV, iH, iV]

theorem split4 (l : List ℝ) (h : 4 ≤ l.length) : [l.getD 0 0, l.getD 1 0, l.getD 2 0, l.getD 3 0] ++ l.drop 4 = l := by
  match l, h with
  | a :: b :: c :: d :: r, _ => rfl

/-- reading a file without an error -/
theorem read_of {f : File} {lin : Option ℚ} {L : Lens} {k : List ℝ} (h0 : f.region ≠ some []) (hd : f.aDigits = false) (hA : inner f.A f.A = 1) (h1 : mag f.A ≠ 0) (h2 : mag (perp f.A f.H) ≠ 0)
    (hl : linearity f = some lin) (hL : readLens f lin = some (L, k)) (hn : ((readCore f ++ k).length : Int) = L.numParams) :
    read f = some { lens := L, intr := readCore f ++ k, pose := ⟨readR f, f.C⟩, dims := f.dims, region := f.region } := by
  have hu : smul (1 / mag f.A) f.A = f.A := by rw [mag_unit hA]; ext <;> simp [smul]
  unfold read
  rw [if_neg h0, hl]
  simp only
  rw [hd, hu, if_neg (by simp), if_neg (by rintro (h | h); exacts [h1 h, h2 h]), hL]
  simp only
  rw [if_neg (by simpa using hn)]

/-- **Specification**: the two models are the same camera: the same place and orientation, the same image, and every point in space is observed at the same pixel -/
structure SameCamera (m m' : CModel) : Prop where
  pose : m'.pose = m.pose
  dims : m'.dims = m.dims
  region : m'.region = m.region
  pixel : ∀ P, modelPixel m' P = modelPixel m P

/-- **C88**: A model that is written to a .cahvor file and read from it is the same camera. The lens model and the intrinsics are the same too, but: CAHVOR without
distortions becomes PINHOLE; and of CAHVOR(E) the two angles of the axis may be others that describe the same axis -/
theorem write_read_partial (m : CModel) (hv : Valid m) (hw : Writable m.lens) (hreg : m.region ≠ some [])
    (hR : m.lens = .cahvor → (m.intr.getD 6 0 = 0 ∧ m.intr.getD 7 0 = 0 ∧ m.intr.getD 8 0 = 0) ∨ (1e-8 : ℝ) ^ 2 ≤ m.intr.getD 6 0 ^ 2 + m.intr.getD 7 0 ^ 2 + m.intr.getD 8 0 ^ 2) :
    ∃ f m', write m = some f ∧ read f = some m' ∧ SameCamera m m' ∧
      (m.lens ≠ .cahvor → m'.lens = m.lens) ∧
      (m.lens ≠ .cahvor → (∀ lin, m.lens ≠ .cahvore lin) → m'.intr = m.intr) ∧
      (m.lens = .cahvor → (m'.lens = .cahvor ∧ m'.intr.take 4 = m.intr.take 4 ∧ m'.intr.drop 6 = m.intr.drop 6) ∨
        (m'.lens = .pinhole ∧ m'.intr = m.intr.take 4 ∧ ∀ i, 6 ≤ i → m.intr.getD i 0 = 0)) ∧
      (∀ lin, m.lens = .cahvore lin → m'.intr.take 4 = m.intr.take 4 ∧ m'.intr.drop 6 = m.intr.drop 6) := by
  obtain ⟨f, hf⟩ := Option.isSome_iff_exists.mp ((write_succeeds_iff m).mpr hw)
  obtain ⟨hC, hF, hdims, hregion, hdg⟩ := write_fits hf
  obtain ⟨hA, h1, h2, hM, hcore⟩ := fits_read hv.rot hF hv.fx hv.fy
  have hreg' : f.region ≠ some [] := by rw [hregion]; exact hreg
  have hlen := hv.len
  have hpose : (⟨readR f, f.C⟩ : Rt) = m.pose := by rw [hM, hC]
  have hcore' : readCore f = [m.intr.getD 0 0, m.intr.getD 1 0, m.intr.getD 2 0, m.intr.getD 3 0] := hcore
  -- all the models that are read exactly
  have exact_case : ∀ lin, linearity f = some lin → readLens f lin = some (m.lens, m.intr.drop 4) → 4 ≤ m.intr.length →
      m.lens ≠ .cahvor → (∀ lin, m.lens ≠ .cahvore lin) →
      ∃ m', read f = some m' ∧ SameCamera m m' ∧ (m.lens ≠ .cahvor → m'.lens = m.lens) ∧
      (m.lens ≠ .cahvor → (∀ lin, m.lens ≠ .cahvore lin) → m'.intr = m.intr) ∧
      (m.lens = .cahvor → (m'.lens = .cahvor ∧ m'.intr.take 4 = m.intr.take 4 ∧ m'.intr.drop 6 = m.intr.drop 6) ∨
        (m'.lens = .pinhole ∧ m'.intr = m.intr.take 4 ∧ ∀ i, 6 ≤ i → m.intr.getD i 0 = 0)) ∧
      (∀ lin, m.lens = .cahvore lin → m'.intr.take 4 = m.intr.take 4 ∧ m'.intr.drop 6 = m.intr.drop 6) := by
    intro lin hlin hL h4 hn1 hn2
    have hint : readCore f ++ m.intr.drop 4 = m.intr := by rw [hcore']; exact split4 _ h4
    refine ⟨_, read_of hreg' hdg hA h1 h2 hlin hL (by rw [hint]; exact hlen), ?_, fun _ => rfl, fun _ _ => hint, fun h => absurd h hn1, fun l h => absurd h (hn2 l)⟩
    refine ⟨hpose, hdims, hregion, fun P => ?_⟩
    unfold modelPixel
    simp only
    rw [hint, hpose]
  have hf0 := hf
  unfold write at hf
  cases hl : m.lens with
  | pinhole =>
    rw [hl] at hf hlen
    simp only [Option.some.injEq] at hf
    simp only [Lens.numParams] at hlen
    obtain ⟨m', hm⟩ := exact_case none (by rw [← hf]; rfl) (by
      have : m.intr.drop 4 = [] := by apply List.drop_eq_nil_of_le; omega
      rw [this, hl, ← hf]; rfl) (by omega) (by rw [hl]; simp) (by rw [hl]; simp)
    rw [hl] at hm
    exact ⟨f, m', hf0, hm⟩
  | opencv4 =>
    rw [hl] at hf hlen
    simp only [Option.some.injEq] at hf
    simp only [Lens.numParams] at hlen
    obtain ⟨m', hm⟩ := exact_case none (by rw [← hf]; rfl) (by rw [hl, ← hf]; rfl) (by omega) (by rw [hl]; simp) (by rw [hl]; simp)
    rw [hl] at hm
    exact ⟨f, m', hf0, hm⟩
  | opencv5 =>
    rw [hl] at hf hlen
    simp only [Option.some.injEq] at hf
    simp only [Lens.numParams] at hlen
    obtain ⟨m', hm⟩ := exact_case none (by rw [← hf]; rfl) (by rw [hl, ← hf]; rfl) (by omega) (by rw [hl]; simp) (by rw [hl]; simp)
    rw [hl] at hm
    exact ⟨f, m', hf0, hm⟩
  | opencv8 =>
    rw [hl] at hf hlen
    simp only [Option.some.injEq] at hf
    simp only [Lens.numParams] at hlen
    obtain ⟨m', hm⟩ := exact_case none (by rw [← hf]; rfl) (by rw [hl, ← hf]; rfl) (by omega) (by rw [hl]; simp) (by rw [hl]; simp)
    rw [hl] at hm
    exact ⟨f, m', hf0, hm⟩
  | opencv12 =>
    rw [hl] at hf hlen
    simp only [Option.some.injEq] at hf
    simp only [Lens.numParams] at hlen
    obtain ⟨m', hm⟩ := exact_case none (by rw [← hf]; rfl) (by rw [hl, ← hf]; rfl) (by omega) (by rw [hl]; simp) (by rw [hl]; simp)
    rw [hl] at hm
    exact ⟨f, m', hf0, hm⟩
  | cahvor =>
    rw [hl] at hf hlen
    simp only [Option.some.injEq] at hf
    simp only [Lens.numParams] at hlen
    have hO : f.O = some (writeO m) := by rw [← hf]
    have hRR : f.R = some (writeR m) := by rw [← hf]
    have hE : f.E = none := by rw [← hf]; rfl
    have hfb : fallback f = none := by rw [← hf]; rfl
    have hlin : linearity f = some none := by rw [← hf]; rfl
    have hOu : ∀ O, f.O = some O → inner O O = 1 := by
      intro O h
      rw [hO] at h; injection h with h
      rw [← h, inner_rot hv.rot.1]
      have := camCoords_mulVec hv.rot.1 (cahvorO (m.intr.getD 4 0) (m.intr.getD 5 0))
      have e : writeO m = mulVec m.pose.R (cahvorO (m.intr.getD 4 0) (m.intr.getD 5 0)) := rfl
      rw [← e] at this
      have u := cahvorO_unit (m.intr.getD 4 0) (m.intr.getD 5 0)
      rw [← this] at u
      exact u
    have hax : cahvorO (readAxis f).1 (readAxis f).2 = cahvorO (m.intr.getD 4 0) (m.intr.getD 5 0) := by
      rw [readAxis_axis hA h1 h2 hOu, hM]
      unfold axisOf
      rw [hO]
      exact camCoords_mulVec hv.rot.1 _
    obtain ⟨l, hll⟩ : ∃ l, l = m.intr := ⟨_, rfl⟩
    have hlen' : l.length = 9 := by rw [hll]; omega
    match l, hlen' with
    | [i0, i1, i2, i3, i4, i5, i6, i7, i8], _ =>
      have hwR : writeR m = ⟨i6, i7, i8⟩ := by unfold writeR at'; rw [← hll]; rfl
      by_cases hs : mag (writeR m) < 1e-8
      · have hz : i6 = 0 ∧ i7 = 0 ∧ i8 = 0 := by
          rcases hR hl with h | h
          · rw [← hll] at h; exact h
          · exfalso
            rw [← hll] at h
            have h' : (1e-8 : ℝ) ^ 2 ≤ i6 ^ 2 + i7 ^ 2 + i8 ^ 2 := h
            have e := mag_sq (writeR m)
            rw [hwR] at e hs
            have hn := mag_nonneg (⟨i6, i7, i8⟩ : P3)
            simp only at e
            nlinarith
        have hL : readLens f none = some (.pinhole, []) := by
          unfold readLens
          rw [hfb, hE, hRR]
          simp only
          rw [if_pos hs]
        refine ⟨f, _, hf0, read_of hreg' hdg hA h1 h2 hlin hL (by rw [hcore']; rfl), ⟨hpose, hdims, hregion, fun P => ?_⟩, fun h => absurd rfl h, fun h => absurd rfl h, fun _ => Or.inr ⟨rfl, ?_, ?_⟩, fun l h => by simp at h⟩
        · unfold modelPixel
          simp only
          rw [hpose, hl, hcore', ← hll]
          simp only [lensPixel]
          rw [cahvor_R0]
          · rfl
          · intro i g1 g2
            obtain ⟨z6, z7, z8⟩ := hz
            have : i = 2 ∨ i = 3 ∨ i = 4 := by omega
            rcases this with h | h | h <;> subst h
            · exact z6
            · exact z7
            · exact z8
        · simp only
          rw [hcore', ← hll]; rfl
        · intro i hi
          rw [← hll]
          obtain ⟨z6, z7, z8⟩ := hz
          rw [z6, z7, z8]
          by_cases hi9 : i < 9
          · have : i = 6 ∨ i = 7 ∨ i = 8 := by omega
            rcases this with h | h | h <;> subst h <;> rfl
          · rw [List.getD_eq_getElem?_getD, List.getElem?_eq_none (by simpa using hi9)]; rfl
      · have hL : readLens f none = some (.cahvor, [(readAxis f).1, (readAxis f).2, i6, i7, i8]) := by
          unfold readLens
          rw [hfb, hE, hRR]
          simp only
          rw [if_neg hs, hwR]
        refine ⟨f, _, hf0, read_of hreg' hdg hA h1 h2 hlin hL (by rw [hcore']; rfl), ⟨hpose, hdims, hregion, fun P => ?_⟩, fun h => absurd rfl h, fun h => absurd rfl h, fun _ => Or.inl ⟨rfl, ?_, ?_⟩, fun l h => by simp at h⟩
        · unfold modelPixel
          simp only
          rw [hpose, hl, hcore', ← hll]
          rw [← hll] at hax
          simp only [lensPixel]
          congr 1
          apply cahvor_axis
          · exact hax
          · intro i g1 g2
            have : i = 2 ∨ i = 3 ∨ i = 4 := by omega
            rcases this with h | h | h <;> subst h <;> rfl
        · simp only
          rw [hcore', ← hll]; rfl
        · simp only
          rw [hcore', ← hll]; rfl
  | cahvore lin =>
    rw [hl] at hf hlen hw
    simp only [Lens.numParams] at hlen
    simp only [Writable] at hw
    simp only [if_neg (not_lt.mpr hw), Option.some.injEq] at hf
    have hO : f.O = some (writeO m) := by rw [← hf]
    have hRR : f.R = some (writeR m) := by rw [← hf]
    have hE : f.E = some (writeE m) := by rw [← hf]
    have hfb : fallback f = none := by rw [← hf]; rfl
    have hlin : linearity f = some (some lin) := by rw [← hf]; rfl
    have hOu : ∀ O, f.O = some O → inner O O = 1 := by
      intro O h
      rw [hO] at h; injection h with h
      rw [← h, inner_rot hv.rot.1]
      have := camCoords_mulVec hv.rot.1 (cahvorO (m.intr.getD 4 0) (m.intr.getD 5 0))
      have e : writeO m = mulVec m.pose.R (cahvorO (m.intr.getD 4 0) (m.intr.getD 5 0)) := rfl
      rw [← e] at this
      have u := cahvorO_unit (m.intr.getD 4 0) (m.intr.getD 5 0)
      rw [← this] at u
      exact u
    have hax : cahvorO (readAxis f).1 (readAxis f).2 = cahvorO (m.intr.getD 4 0) (m.intr.getD 5 0) := by
      rw [readAxis_axis hA h1 h2 hOu, hM]
      unfold axisOf
      rw [hO]
      exact camCoords_mulVec hv.rot.1 _
    obtain ⟨l, hll⟩ : ∃ l, l = m.intr := ⟨_, rfl⟩
    have hlen' : l.length = 12 := by rw [hll]; omega
    match l, hlen' with
    | [i0, i1, i2, i3, i4, i5, i6, i7, i8, i9, i10, i11], _ =>
      have hwR : writeR m = ⟨i6, i7, i8⟩ := by unfold writeR at'; rw [← hll]; rfl
      have hwE : writeE m = ⟨i9, i10, i11⟩ := by unfold writeE at'; rw [← hll]; rfl
      have hL : readLens f (some lin) = some (.cahvore lin, [(readAxis f).1, (readAxis f).2, i6, i7, i8, i9, i10, i11]) := by
        unfold readLens
        rw [hfb, hE, hRR, hwR, hwE]
      refine ⟨f, _, hf0, read_of hreg' hdg hA h1 h2 hlin hL (by rw [hcore']; rfl), ⟨hpose, hdims, hregion, fun P => ?_⟩, fun h => rfl, fun _ h => absurd rfl (h lin), fun h => by simp at h, fun l h => ⟨?_, ?_⟩⟩
      · unfold modelPixel
        simp only
        rw [hpose, hl, hcore', ← hll]
        rw [← hll] at hax
        simp only [lensPixel]
        apply cahvore_axis
        · exact hax
        · intro i g1 g2
          have : i = 2 ∨ i = 3 ∨ i = 4 ∨ i = 5 ∨ i = 6 ∨ i = 7 := by omega
          rcases this with h | h | h | h | h | h <;> subst h <;> rfl
      · simp only
        rw [hcore', ← hll]; rfl
      · simp only
        rw [hcore', ← hll]; rfl
  | _ => rw [hl] at hw; exact absurd hw (by simp [Writable])

/-! ### which files are accepted -/

/-- **Specification**: the declaration of the type of a CAHVORE is one of `CAHVORE1`, `CAHVORE2`, `CAHVORE3,linearity`, perhaps with a redundant linearity -/
def DeclOk (f : File) : Prop :=
  ∀ t l, f.cahvore = some (t, l) → (t = 1 ∧ (l = none ∨ l = some 1)) ∨ (t = 2 ∧ (l = none ∨ l = some 0)) ∨ (t = 3 ∧ l ≠ none)

/-- **Specification**: the distortions are complete. The OPENCV keys come first, the largest of them first. Otherwise R is there in CAHVOR and CAHVORE files; and E in CAHVORE
files, only -/
def DistOk (f : File) : Prop :=
  match f.ocv12, f.ocv8, f.ocv5, f.ocv4 with
  | some k, _, _, _ => k.length = 12
  | none, some k, _, _ => k.length = 8
  | none, none, some k, _ => k.length = 5
  | none, none, none, some k => k.length = 4
  | none, none, none, none => f.R = none ∨ (f.cahvore ≠ none ↔ f.E ≠ none)

theorem perp_zero {A H : P3} (hA : mag A ≠ 0) : mag (perp (smul (1 / mag A) A) H) = 0 ↔ cross A H = ⟨0, 0, 0⟩ := by
  obtain ⟨u, hu⟩ : ∃ u, u = smul (1 / mag A) A := ⟨_, rfl⟩
  have uu := smul_mag hA
  rw [← hu] at uu ⊢
  have e : mag (perp u H) * mag (perp u H) = inner (cross u H) (cross u H) := by
    rw [mag_sq]
    simp only [inner] at uu
    simp only [perp, subP, smul, dot3, inner, cross]
    linear_combination (-(H.x * H.x + H.y * H.y + H.z * H.z) + (H.x * u.x + H.y * u.y + H.z * u.z) ^ 2) * uu
  have e2 : cross u H = smul (1 / mag A) (cross A H) := by
    rw [hu]; ext <;> simp only [cross, smul] <;> ring
  constructor
  · intro h
    rw [h] at e
    have e' : (cross u H).x * (cross u H).x + (cross u H).y * (cross u H).y + (cross u H).z * (cross u H).z = 0 := by
      have : (0 : ℝ) * 0 = 0 := by norm_num
      rw [this] at e; exact e.symm
    have x0 : (cross u H).x = 0 := by nlinarith [mul_self_nonneg (cross u H).x, mul_self_nonneg (cross u H).y, mul_self_nonneg (cross u H).z]
    have y0 : (cross u H).y = 0 := by nlinarith [mul_self_nonneg (cross u H).x, mul_self_nonneg (cross u H).y, mul_self_nonneg (cross u H).z]
    have z0 : (cross u H).z = 0 := by nlinarith [mul_self_nonneg (cross u H).x, mul_self_nonneg (cross u H).y, mul_self_nonneg (cross u H).z]
    have : smul (mag A) (cross u H) = cross A H := by rw [e2]; exact smul_inv hA _
    rw [← this]
    simp only [smul]
    rw [x0, y0, z0]; simp
  · intro h
    rw [e2, h] at e
    simp [smul, inner] at e
    exact e

theorem linearity_iff (f : File) : (∃ lin, linearity f = some lin ∧ (lin ≠ none ↔ f.cahvore ≠ none)) ↔ DeclOk f := by
  unfold linearity DeclOk
  cases hc : f.cahvore with
  | none => simp
  | some x =>
    obtain ⟨t, l⟩ := x
    simp only [Option.some.injEq, Prod.mk.injEq]
    constructor
    · rintro ⟨lin, h, -⟩ t' l' ⟨e1, e2⟩
      subst e1; subst e2
      split_ifs at h with h1 h2 h3
      · subst h1
        cases l with
        | none => simp
        | some v => simp only at h; split at h; · exact absurd h (by simp)
                    rename_i hv; simp at hv; subst hv; simp
      · subst h2
        cases l with
        | none => simp
        | some v => simp only at h; split at h; · exact absurd h (by simp)
                    rename_i hv; simp at hv; subst hv; simp
      · subst h3
        cases l with
        | none => exact absurd h (by simp)
        | some v => simp
    · intro h
      rcases h t l ⟨rfl, rfl⟩ with ⟨rfl, h | h⟩ | ⟨rfl, h | h⟩ | ⟨rfl, h3⟩
      · subst h; exact ⟨some 1, by simp, by simp⟩
      · subst h; exact ⟨some 1, by simp, by simp⟩
      · subst h; exact ⟨some 0, by simp, by simp⟩
      · subst h; exact ⟨some 0, by simp, by simp⟩
      · obtain ⟨v, hv⟩ := Option.ne_none_iff_exists'.mp h3
        subst hv
        exact ⟨some v, by simp, by simp⟩

theorem lens_iff (f : File) (lin : Option ℚ) (hlin : lin ≠ none ↔ f.cahvore ≠ none) :
    (∃ L k, readLens f lin = some (L, k) ∧ ((readCore f ++ k).length : Int) = L.numParams) ↔ DistOk f := by
  have hl : ∀ k : List ℝ, ((readCore f ++ k).length : Int) = 4 + k.length := by
    intro k; rw [List.length_append]; push_cast; rfl
  have hnil : ((4 : Int) + (([] : List ℝ).length : Int)) = 4 := rfl
  simp only [hl]
  unfold readLens fallback DistOk
  cases h12 : f.ocv12 with
  | some k => simp [Lens.numParams]; omega
  | none =>
  cases h8 : f.ocv8 with
  | some k => simp [Lens.numParams]; omega
  | none =>
  cases h5 : f.ocv5 with
  | some k => simp [Lens.numParams]; omega
  | none =>
  cases h4 : f.ocv4 with
  | some k => simp [Lens.numParams]; omega
  | none =>
  cases hR : f.R with
  | none => simp [Lens.numParams]
  | some R =>
    simp only [reduceCtorEq, false_or]
    cases lin with
    | some l =>
      have : f.cahvore ≠ none := hlin.mp (by simp)
      cases hE : f.E with
      | none => simp [this]
      | some E => simp [this, Lens.numParams]
    | none =>
      have : ¬ f.cahvore ≠ none := fun h => hlin.mpr h rfl
      cases hE : f.E with
      | some E => simp [this]
      | none =>
        simp only [this, ne_eq, not_true_eq_false, iff_true]
        split
        · exact ⟨.pinhole, [], rfl, rfl⟩
        · exact ⟨.cahvor, _, rfl, rfl⟩

/-- **C88**: Exactly these files are accepted: the declaration and the distortions are right, A is not 0 and isn't along H; A isn't written with digits only, and the valid region
is not given as empty. (The last two are limits of the implementation: `integer_axis_wrong`, `empty_region_wrong`) -/
theorem read_succeeds_iff (f : File) :
    (read f).isSome ↔ DeclOk f ∧ DistOk f ∧ f.A ≠ ⟨0, 0, 0⟩ ∧ cross f.A f.H ≠ ⟨0, 0, 0⟩ ∧ f.aDigits = false ∧ f.region ≠ some [] := by
  have hA0 : mag f.A = 0 ↔ f.A = ⟨0, 0, 0⟩ := by
    constructor
    · intro h
      have e := mag_sq f.A
      rw [h] at e
      have x0 : f.A.x = 0 := by nlinarith [mul_self_nonneg f.A.x, mul_self_nonneg f.A.y, mul_self_nonneg f.A.z]
      have y0 : f.A.y = 0 := by nlinarith [mul_self_nonneg f.A.x, mul_self_nonneg f.A.y, mul_self_nonneg f.A.z]
      have z0 : f.A.z = 0 := by nlinarith [mul_self_nonneg f.A.x, mul_self_nonneg f.A.y, mul_self_nonneg f.A.z]
      ext
      · exact x0
      · exact y0
      · exact z0
    · intro h
      apply mag_of_sq le_rfl
      rw [h]; simp
  constructor
  · intro h
    obtain ⟨m, hm⟩ := Option.isSome_iff_exists.mp h
    obtain ⟨g0, gd, g1, g2, lin, L, k, glin, gL, gn, -⟩ := read_some hm
    have hlc : lin ≠ none ↔ f.cahvore ≠ none := by
      unfold linearity at glin
      cases hc : f.cahvore with
      | none => rw [hc] at glin; simp at glin; simp [← glin]
      | some x =>
        obtain ⟨t, l⟩ := x
        rw [hc] at glin
        simp only at glin
        split_ifs at glin
        · cases l with
          | none => simp at glin; simp [← glin]
          | some v => simp only at glin; split at glin; · exact absurd glin (by simp)
                      simp at glin; simp [← glin]
        · cases l with
          | none => simp at glin; simp [← glin]
          | some v => simp only at glin; split at glin; · exact absurd glin (by simp)
                      simp at glin; simp [← glin]
        · cases l with
          | none => simp at glin
          | some v => simp at glin; simp [← glin]
    exact ⟨(linearity_iff f).mp ⟨lin, glin, hlc⟩, (lens_iff f lin hlc).mp ⟨L, k, gL, gn⟩, fun e => g1 (hA0.mpr e), fun e => g2 ((perp_zero g1).mpr e), gd, g0⟩
  · rintro ⟨hd, hk, ha, hh, hg, hr⟩
    obtain ⟨lin, glin, hlc⟩ := (linearity_iff f).mpr hd
    obtain ⟨L, k, gL, gn⟩ := (lens_iff f lin hlc).mpr hk
    have g1 : mag f.A ≠ 0 := fun e => ha (hA0.mp e)
    have g2 : mag (perp (smul (1 / mag f.A) f.A) f.H) ≠ 0 := fun e => hh ((perp_zero g1).mp e)
    unfold read
    rw [if_neg hr, glin]
    simp only
    rw [hg, if_neg (by simp), if_neg (by rintro (h | h); exacts [g1 h, g2 h]), gL]
    simp only
    rw [if_neg (by simpa using gn)]
    rfl

/-! ### examples -/

/-- a camera rotated by 90 degrees around z, away from the origin, with a CAHVOR lens whose axis isn't the optical axis -/
noncomputable def exModel : CModel :=
  ⟨.cahvor, [1000, 1100, 640, 480, 1 / 10, 1 / 20, 1 / 100, -1 / 50, 1 / 30], ⟨⟨0, -1, 0, 1, 0, 0, 0, 0, 1⟩, ⟨1, 2, 3⟩⟩, (1280, 960), some [⟨0, 0⟩, ⟨100, 0⟩, ⟨0, 100⟩, ⟨0, 0⟩]⟩

theorem ex_valid : Valid exModel := by
  refine ⟨rfl, ⟨?_, ?_⟩, by norm_num [exModel], by norm_num [exModel]⟩
  · show toMat exModel.pose.R * (toMat exModel.pose.R).transpose = 1
    ext i j
    fin_cases i <;> fin_cases j <;> simp [exModel, toMat, Matrix.mul_apply, Fin.sum_univ_three]
  · rw [Matrix.det_fin_three]; simp [exModel, toMat]

/-- the hypotheses of `write_read_partial` can be met -/
example : ∃ f m', write exModel = some f ∧ read f = some m' ∧ SameCamera exModel m' := by
  obtain ⟨f, m', h1, h2, h3, -⟩ := write_read_partial exModel ex_valid trivial (by simp [exModel]) (fun _ => Or.inr (by norm_num [exModel]))
  exact ⟨f, m', h1, h2, h3⟩

/-- the hypotheses of `written_equations` can be met: the point 5 units ahead of the camera along the axis of the distortion -/
example : ∃ f, write exModel = some f ∧ Defined f (subP (addP ⟨1, 2, 3⟩ (smul 5 (writeO exModel))) f.C) := by
  refine ⟨_, rfl, ?_⟩
  have u : inner (writeO exModel) (writeO exModel) = 1 := by
    have e := camCoords_mulVec ex_valid.rot.1 (cahvorO (exModel.intr.getD 4 0) (exModel.intr.getD 5 0))
    have g : writeO exModel = mulVec exModel.pose.R (cahvorO (exModel.intr.getD 4 0) (exModel.intr.getD 5 0)) := rfl
    rw [← g] at e
    rw [inner_rot ex_valid.rot.1]
    have v := cahvorO_unit (exModel.intr.getD 4 0) (exModel.intr.getD 5 0)
    rw [← e] at v
    exact v
  have hd : subP (addP ⟨1, 2, 3⟩ (smul 5 (writeO exModel))) exModel.pose.t = smul 5 (writeO exModel) := by
    ext <;> simp [subP, addP, smul, exModel]
  show Defined _ (subP (addP ⟨1, 2, 3⟩ (smul 5 (writeO exModel))) exModel.pose.t)
  rw [hd]
  have hz : inner (smul 5 (writeO exModel)) (writeO exModel) = 5 := by
    have : inner (smul 5 (writeO exModel)) (writeO exModel) = 5 * inner (writeO exModel) (writeO exModel) := by simp only [inner, smul]; ring
    rw [this, u]; norm_num
  constructor
  · intro _
    show inner (smul 5 (writeO exModel)) (writeO exModel) ≠ 0
    rw [hz]; norm_num
  · have hdis : distort { writeCahv exModel with O := some (writeO exModel), R := some (writeR exModel) } (smul 5 (writeO exModel)) = smul 5 (writeO exModel) := by
      simp only [distort, axisOf, Option.getD_some]
      rw [hz]
      simp [smul]
    show inner (col2 exModel.pose.R) (distort { writeCahv exModel with O := some (writeO exModel), R := some (writeR exModel) } (smul 5 (writeO exModel))) ≠ 0
    rw [hdis]
    simp only [inner, col2, smul, writeO, mulVec, exModel, at']
    have c1 := Real.cos_pos_of_mem_Ioo (x := 1 / 10) ⟨by linarith [Real.pi_gt_three], by linarith [Real.pi_gt_three]⟩
    have c2 := Real.cos_pos_of_mem_Ioo (x := 1 / 20) ⟨by linarith [Real.pi_gt_three], by linarith [Real.pi_gt_three]⟩
    simp
    constructor
    · have := c1.ne'; simpa using this
    · have := c2.ne'; simpa using this

/-- a file with the digits of A as in `A = 0.0 0.0 1.0` -/
noncomputable def exFile : File := ⟨none, (1280, 960), ⟨1, 2, 3⟩, ⟨0, 0, 1⟩, ⟨1000, 0, 640⟩, ⟨0, 1100, 480⟩, false, none, some ⟨1 / 100, 0, 0⟩, none, none, none, none, none, none⟩

theorem ex_readable : (read exFile).isSome := by
  rw [read_succeeds_iff]
  refine ⟨by simp [DeclOk, exFile], by simp [DistOk, exFile], by simp [exFile], by simp [exFile, cross], rfl, by simp [exFile]⟩

/-- the hypotheses of `read_equations`, `read_pose` can be met -/
example : ∃ m q, read exFile = some m ∧ modelPixel m ⟨2, 3, 4⟩ = some q ∧ q = (⟨1650, 1591⟩ : P2) := by
  obtain ⟨m, hm⟩ := Option.isSome_iff_exists.mp ex_readable
  have hl : m.lens = .pinhole ∨ m.lens = .cahvor := by
    obtain ⟨-, -, -, -, lin, L, k, hlin, hL, -, e⟩ := read_some hm
    subst e
    have : lin = none := by
      have : linearity exFile = some none := rfl
      rw [this] at hlin; injection hlin with h; exact h.symm
    subst this
    unfold readLens at hL
    have hfb : fallback exFile = none := rfl
    rw [hfb] at hL
    simp only [exFile] at hL
    split_ifs at hL <;> simp at hL
    · exact Or.inl hL.1.symm
    · exact Or.inr hL.1.symm
  obtain ⟨q, h1, h2, h3⟩ := read_equations exFile m hm hl (by simp [exFile, inner]) (by simp [exFile]) (by
      intro R h
      simp only [exFile, Option.some.injEq] at h
      subst h
      right; norm_num [inner]) ⟨2, 3, 4⟩ (by
      refine ⟨fun _ => ?_, ?_⟩
      · simp [exFile, inner, subP, axisOf]; norm_num
      · simp [exFile, inner, subP, distort, axisOf]; norm_num)
  refine ⟨m, q, hm, h1, ?_⟩
  have h4 := h3 (by
    constructor
    · simp [exFile, inner]
    · simp [exFile])
  ext
  · rw [h2]; norm_num [cahv, distort, exFile, inner, subP, axisOf]
  · rw [h4]; norm_num [cahv, distort, exFile, inner, subP, axisOf]

/-! ### where it doesn't hold -/

/-- **C88, in general false**: "a CAHVOR model survives being written and read": a distortion smaller than 1e-8 is dropped when reading -/
theorem write_read_wrong : ∃ m, Valid m ∧ Writable m.lens ∧ m.region ≠ some [] ∧
    ∃ f m' P, write m = some f ∧ read f = some m' ∧ modelPixel m' P ≠ modelPixel m P := by
  obtain ⟨m, hm⟩ : ∃ m : CModel, m = ⟨.cahvor, [1000, 1000, 500, 500, 0, 0, 1 / 1000000000, 0, 0], ⟨⟨1, 0, 0, 0, 1, 0, 0, 0, 1⟩, ⟨0, 0, 0⟩⟩, (1000, 1000), none⟩ := ⟨_, rfl⟩
  have hv : Valid m := by
    subst hm
    refine ⟨rfl, ⟨?_, ?_⟩, by norm_num, by norm_num⟩
    · show toMat _ * (toMat _).transpose = 1
      ext i j
      fin_cases i <;> fin_cases j <;> simp [toMat, Matrix.mul_apply, Fin.sum_univ_three]
    · rw [Matrix.det_fin_three]; simp [toMat]
  have hs : write m = some { writeCahv m with O := some (writeO m), R := some (writeR m) } := by
    unfold write; subst hm; rfl
  obtain ⟨f, hf⟩ : ∃ f, f = { writeCahv m with O := some (writeO m), R := some (writeR m) } := ⟨_, rfl⟩
  rw [← hf] at hs
  obtain ⟨hC, hF, hdims, hregion, hdg⟩ := write_fits hs
  obtain ⟨hA, h1, h2, hM, hcore⟩ := fits_read hv.rot hF hv.fx hv.fy
  have hreg : f.region ≠ some [] := by rw [hregion]; subst hm; simp
  have hsm : mag (writeR m) < 1e-8 := by
    have : mag (writeR m) = 1 / 1000000000 := by
      apply mag_of_sq (by norm_num)
      subst hm; simp [writeR, at']
    rw [this]; norm_num
  have hL : readLens f none = some (.pinhole, []) := by
    unfold readLens
    have h1 : fallback f = none := by rw [hf]; rfl
    have h2 : f.E = none := by rw [hf]; rfl
    have h3 : f.R = some (writeR m) := by rw [hf]
    rw [h1, h2, h3]
    simp only
    rw [if_pos hsm]
  have hlin : linearity f = some none := by rw [hf]; rfl
  refine ⟨m, hv, by subst hm; trivial, by subst hm; simp, f, _, ⟨1, 0, 1⟩, hs, read_of hreg hdg hA h1 h2 hlin hL (by rw [hcore]; rfl), ?_⟩
  intro e
  unfold modelPixel at e
  simp only at e
  rw [hcore, hM, hC] at e
  subst hm
  simp only [lensPixel, Option.some.injEq] at e
  have ex := congrArg P2.x e
  simp [pinhole, cahvorQ, cahvorDistort, cahvorState, distortedQ, transformPointRt, rotatePointR, mulVec, transpose, subP, coreOf, intrOf, nocoreOf, cahvorO, dot3] at ex

/-- **C88, in general false**: "a file with the right values can be read": `A = 0 0 1` is an error; `A = 0.0 0.0 1.0` isn't -/
theorem integer_axis_wrong : ∃ f, (read f).isSome ∧ read { f with aDigits := true } = none := by
  refine ⟨exFile, ex_readable, ?_⟩
  by_contra h
  have := (read_succeeds_iff { exFile with aDigits := true }).mp (Option.isSome_iff_ne_none.mpr h)
  exact absurd this.2.2.2.2.1 (by simp)

/-- **C88, in general false**: "what is written can be read": an empty valid-intrinsics region is written as an empty value -/
theorem empty_region_wrong : ∃ m, Valid m ∧ ∃ f, write m = some f ∧ read f = none := by
  refine ⟨{ exModel with region := some [] }, ⟨ex_valid.len, ex_valid.rot, ex_valid.fx, ex_valid.fy⟩, _, rfl, ?_⟩
  by_contra h
  have := (read_succeeds_iff _).mp (Option.isSome_iff_ne_none.mpr h)
  exact this.2.2.2.2.2 rfl

end Mrcal.CahvorFile
