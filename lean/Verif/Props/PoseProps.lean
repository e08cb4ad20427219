import Verif.Model.Pose
import Verif.Props.Calc
import Mathlib.LinearAlgebra.Matrix.NonsingularInverse
/-
C25: the algebra of Rt transforms. C31: R_aligned_to_vector.
-/
namespace Mrcal.Pose

/-! ### specification: plain linear algebra, using Mathlib's matrices -/

/-- the matrix -/
def toMat (M : M3) : Matrix (Fin 3) (Fin 3) ℝ := !![M.a00, M.a01, M.a02; M.a10, M.a11, M.a12; M.a20, M.a21, M.a22]
/-- the vector -/
def toVec (v : P3) : Fin 3 → ℝ := ![v.x, v.y, v.z]

theorem toMat_inj {A B : M3} (h : toMat A = toMat B) : A = B := by
  have e : ∀ i j, toMat A i j = toMat B i j := fun i j => by rw [h]
  ext
  · exact e 0 0
  · exact e 0 1
  · exact e 0 2
  · exact e 1 0
  · exact e 1 1
  · exact e 1 2
  · exact e 2 0
  · exact e 2 1
  · exact e 2 2
theorem toVec_inj {a b : P3} (h : toVec a = toVec b) : a = b := by
  have e : ∀ i, toVec a i = toVec b i := fun i => by rw [h]
  ext
  · exact e 0
  · exact e 1
  · exact e 2

/-- an orthogonal matrix -/
def Orth (M : M3) : Prop := toMat M * (toMat M).transpose = 1
/-- a rotation: orthogonal, and not a mirror -/
def IsRot (M : M3) : Prop := Orth M ∧ (toMat M).det = 1

/-- the library's products are the matrix products -/
theorem toMat_mul (A B : M3) : toMat (mul A B) = toMat A * toMat B := by
  ext i j
  fin_cases i <;> fin_cases j <;> simp [toMat, mul, vecMul, Matrix.mul_apply, Fin.sum_univ_three] <;> ring
theorem toMat_transpose (A : M3) : toMat (transpose A) = (toMat A).transpose := by
  ext i j
  fin_cases i <;> fin_cases j <;> rfl
theorem toVec_mulVec (A : M3) (v : P3) : toVec (mulVec A v) = (toMat A).mulVec (toVec v) := by
  ext i
  fin_cases i <;> simp [toMat, toVec, mulVec, Matrix.mulVec, dotProduct, Fin.sum_univ_three]
theorem toMat_identity : toMat identityR = 1 := by
  ext i j
  fin_cases i <;> fin_cases j <;> simp [toMat, identityR]

theorem Orth.left {M : M3} (h : Orth M) : (toMat M).transpose * toMat M = 1 := mul_eq_one_comm.mp h

/-- the 6 equations -/
theorem Orth.cols {M : M3} (h : Orth M) :
    M.a00 * M.a00 + M.a10 * M.a10 + M.a20 * M.a20 = 1 ∧ M.a01 * M.a01 + M.a11 * M.a11 + M.a21 * M.a21 = 1 ∧
    M.a02 * M.a02 + M.a12 * M.a12 + M.a22 * M.a22 = 1 ∧ M.a00 * M.a01 + M.a10 * M.a11 + M.a20 * M.a21 = 0 ∧
    M.a00 * M.a02 + M.a10 * M.a12 + M.a20 * M.a22 = 0 ∧ M.a01 * M.a02 + M.a11 * M.a12 + M.a21 * M.a22 = 0 := by
  have l := h.left
  have e : ∀ i j, ((toMat M).transpose * toMat M) i j = (1 : Matrix (Fin 3) (Fin 3) ℝ) i j := fun i j => by rw [l]
  have e00 := e 0 0
  have e11 := e 1 1
  have e22 := e 2 2
  have e01 := e 0 1
  have e02 := e 0 2
  have e12 := e 1 2
  simp [toMat, Matrix.mul_apply, Fin.sum_univ_three] at e00 e11 e22 e01 e02 e12
  exact ⟨e00, e11, e22, e01, e02, e12⟩

theorem Orth.rows {M : M3} (h : Orth M) :
    M.a00 * M.a00 + M.a01 * M.a01 + M.a02 * M.a02 = 1 ∧ M.a10 * M.a10 + M.a11 * M.a11 + M.a12 * M.a12 = 1 ∧
    M.a20 * M.a20 + M.a21 * M.a21 + M.a22 * M.a22 = 1 ∧ M.a00 * M.a10 + M.a01 * M.a11 + M.a02 * M.a12 = 0 ∧
    M.a00 * M.a20 + M.a01 * M.a21 + M.a02 * M.a22 = 0 ∧ M.a10 * M.a20 + M.a11 * M.a21 + M.a12 * M.a22 = 0 := by
  have e : ∀ i j, (toMat M * (toMat M).transpose) i j = (1 : Matrix (Fin 3) (Fin 3) ℝ) i j := fun i j => by rw [h]
  have e00 := e 0 0
  have e11 := e 1 1
  have e22 := e 2 2
  have e01 := e 0 1
  have e02 := e 0 2
  have e12 := e 1 2
  simp [toMat, Matrix.mul_apply, Fin.sum_univ_three] at e00 e11 e22 e01 e02 e12
  exact ⟨e00, e11, e22, e01, e02, e12⟩

/-- **Specification**: what a transform does to a point -/
def act (T : Rt) (x : P3) : Fin 3 → ℝ := (toMat T.R).mulVec (toVec x) + toVec T.t

/-- **C25**: the transform is R x + t; the inverted transform undoes it -/
theorem transform_meaning (T : Rt) (x : P3) : toVec (transformPointRt T x false) = act T x := by
  ext i
  fin_cases i <;> simp [act, transformPointRt, rotatePointR, mulVec, addP, toVec, toMat] <;> ring

/-- **C25**: the inverted transform undoes the transform, and the other way around -/
theorem transform_inverted (T : Rt) (h : Orth T.R) (x : P3) :
    transformPointRt T (transformPointRt T x false) true = x ∧ transformPointRt T (transformPointRt T x true) false = x := by
  obtain ⟨c0, c1, c2, c01, c02, c12⟩ := h.cols
  obtain ⟨r0, r1, r2, r01, r02, r12⟩ := h.rows
  simp only [transformPointRt, rotatePointR, mulVec, transpose, addP, subP]
  constructor
  · ext
    · simp; linear_combination c0 * x.x + c01 * x.y + c02 * x.z
    · simp; linear_combination c01 * x.x + c1 * x.y + c12 * x.z
    · simp; linear_combination c02 * x.x + c12 * x.y + c2 * x.z
  · ext
    · simp; linear_combination r0 * (x.x - T.t.x) + r01 * (x.y - T.t.y) + r02 * (x.z - T.t.z)
    · simp; linear_combination r01 * (x.x - T.t.x) + r1 * (x.y - T.t.y) + r12 * (x.z - T.t.z)
    · simp; linear_combination r02 * (x.x - T.t.x) + r12 * (x.y - T.t.y) + r2 * (x.z - T.t.z)

/-- **C25**: composing is applying one after another, for each combination of the flags -/
theorem compose_transform (A B : Rt) (i0 i1 : Bool) (x : P3) :
    transformPointRt (composeRt A B i0 i1) x false = transformPointRt A (transformPointRt B x i1) i0 := by
  cases i0 <;> cases i1 <;>
    simp [composeRt, transformPointRt, rotatePointR, mulVec, vecMul, mul, transpose, addP, subP, negP] <;>
    refine ⟨?_, ?_, ?_⟩ <;> ring

/-- transforms are determined by what they do -/
theorem act_ext {A B : Rt} (h : ∀ x, transformPointRt A x false = transformPointRt B x false) : A = B := by
  have h0 := h ⟨0, 0, 0⟩
  have h1 := h ⟨1, 0, 0⟩
  have h2 := h ⟨0, 1, 0⟩
  have h3 := h ⟨0, 0, 1⟩
  simp [transformPointRt, rotatePointR, mulVec, addP] at h0 h1 h2 h3
  obtain ⟨a, b, c⟩ := h0
  obtain ⟨d, e, f⟩ := h1
  obtain ⟨d2, e2, f2⟩ := h2
  obtain ⟨d3, e3, f3⟩ := h3
  ext <;> linarith

/-- **C25**: associativity -/
theorem compose_assoc (A B C : Rt) :
    composeRt (composeRt A B false false) C false false = composeRt A (composeRt B C false false) false false :=
  act_ext fun x => by simp only [compose_transform]

/-- **C25**: the identity -/
theorem compose_identity (A : Rt) :
    composeRt identityRt A false false = A ∧ composeRt A identityRt false false = A ∧
    ∀ x, transformPointRt identityRt x false = x := by
  have h : ∀ x, transformPointRt identityRt x false = x := by
    intro x
    simp [transformPointRt, identityRt, identityR, rotatePointR, mulVec, addP]
  exact ⟨act_ext fun x => by rw [compose_transform, h], act_ext fun x => by rw [compose_transform, h], h⟩

/-- **C25**: the inverse does what the inverted transform does -/
theorem invert_transform (A : Rt) (x : P3) (h : Orth A.R) :
    transformPointRt (invertRt A) x false = transformPointRt A x true ∧
    transformPointRt (invertRt A) x true = transformPointRt A x false := by
  obtain ⟨c0, c1, c2, c01, c02, c12⟩ := h.cols
  obtain ⟨r0, r1, r2, r01, r02, r12⟩ := h.rows
  simp only [invertRt, transformPointRt, rotatePointR, mulVec, transpose, addP, subP]
  constructor
  · ext <;> simp <;> ring
  · ext
    · simp; linear_combination r0 * A.t.x + r01 * A.t.y + r02 * A.t.z
    · simp; linear_combination r01 * A.t.x + r1 * A.t.y + r12 * A.t.z
    · simp; linear_combination r02 * A.t.x + r12 * A.t.y + r2 * A.t.z

/-- **C25**: two-sided inverse -/
theorem compose_inverse (A : Rt) (h : Orth A.R) :
    composeRt (invertRt A) A false false = identityRt ∧ composeRt A (invertRt A) false false = identityRt := by
  constructor
  · exact act_ext fun x => by
      rw [compose_transform, (invert_transform A _ h).1, (transform_inverted A h x).1, (compose_identity A).2.2]
  · exact act_ext fun x => by
      rw [compose_transform, (invert_transform A _ h).1, (transform_inverted A h x).2, (compose_identity A).2.2]

/-- **C25**: each flag is equivalent to inverting that argument first -/
theorem compose_flags (A B : Rt) (i0 i1 : Bool) (hA : Orth A.R) (hB : Orth B.R) :
    composeRt A B i0 i1 = composeRt (if i0 then invertRt A else A) (if i1 then invertRt B else B) false false := by
  apply act_ext
  intro x
  rw [compose_transform, compose_transform]
  cases i0 <;> cases i1 <;>
    simp only [Bool.false_eq_true, if_false, if_true, (invert_transform A _ hA).1, (invert_transform B _ hB).1]

/-- **C25**: inverting twice does nothing -/
theorem invert_invert (A : Rt) (h : Orth A.R) : invertRt (invertRt A) = A := by
  have ho : Orth (invertRt A).R := by
    unfold Orth invertRt
    simp only [toMat_transpose, Matrix.transpose_transpose]
    exact h.left
  apply act_ext
  intro x
  rw [(invert_transform (invertRt A) x ho).1, (invert_transform A x h).2]

/-- **C25**: compositions and inverses of rigid transforms are rigid -/
theorem compose_rot (A B : Rt) (i0 i1 : Bool) (hA : IsRot A.R) (hB : IsRot B.R) : IsRot (composeRt A B i0 i1).R := by
  have m : ∀ X Y : M3, IsRot X → IsRot Y → IsRot (mul X Y) := by
    intro X Y hX hY
    refine ⟨?_, ?_⟩
    · unfold Orth
      rw [toMat_mul, Matrix.transpose_mul, Matrix.mul_assoc, ← Matrix.mul_assoc (toMat Y), hY.1, Matrix.one_mul, hX.1]
    · rw [toMat_mul, Matrix.det_mul, hX.2, hY.2, one_mul]
  have tr : ∀ X : M3, IsRot X → IsRot (transpose X) := by
    intro X hX
    refine ⟨?_, ?_⟩
    · unfold Orth
      rw [toMat_transpose, Matrix.transpose_transpose]
      exact hX.1.left
    · rw [toMat_transpose, Matrix.det_transpose, hX.2]
  cases i0 <;> cases i1 <;> simp only [composeRt, Bool.not_false, Bool.not_true, Bool.and_self, Bool.and_false, Bool.false_and,
    Bool.and_true, if_true, if_false, Bool.false_eq_true]
  · exact m _ _ hA hB
  · exact m _ _ hA (tr _ hB)
  · exact m _ _ (tr _ hA) hB
  · exact m _ _ (tr _ hA) (tr _ hB)

/-- a nontrivial rotation: 90 degrees about z -/
def rotZ90 : M3 := ⟨0, -1, 0, 1, 0, 0, 0, 0, 1⟩
example : IsRot rotZ90 := by
  refine ⟨?_, ?_⟩
  · unfold Orth
    ext i j
    fin_cases i <;> fin_cases j <;> simp [toMat, rotZ90, Matrix.mul_apply, Fin.sum_univ_three]
  · simp [toMat, rotZ90, Matrix.det_fin_three]

/-! ### gradients of the matrix functions -/

/-- the derivative of a matrix path -/
def HasDerivM (M : ℝ → M3) (M' : M3) (t : ℝ) : Prop :=
  HasDerivAt (fun s => (M s).a00) M'.a00 t ∧ HasDerivAt (fun s => (M s).a01) M'.a01 t ∧ HasDerivAt (fun s => (M s).a02) M'.a02 t ∧
  HasDerivAt (fun s => (M s).a10) M'.a10 t ∧ HasDerivAt (fun s => (M s).a11) M'.a11 t ∧ HasDerivAt (fun s => (M s).a12) M'.a12 t ∧
  HasDerivAt (fun s => (M s).a20) M'.a20 t ∧ HasDerivAt (fun s => (M s).a21) M'.a21 t ∧ HasDerivAt (fun s => (M s).a22) M'.a22 t
/-- the derivative of a vector path -/
def HasDerivP (p : ℝ → P3) (p' : P3) (t : ℝ) : Prop :=
  HasDerivAt (fun s => (p s).x) p'.x t ∧ HasDerivAt (fun s => (p s).y) p'.y t ∧ HasDerivAt (fun s => (p s).z) p'.z t
/-- elementwise product, summed -/
def inner9 (A B : M3) : ℝ :=
  A.a00 * B.a00 + A.a01 * B.a01 + A.a02 * B.a02 + A.a10 * B.a10 + A.a11 * B.a11 + A.a12 * B.a12 +
  A.a20 * B.a20 + A.a21 * B.a21 + A.a22 * B.a22

/-- **C25**: the gradients reported by transform_point_Rt() are the true ones, with respect to every element of R and t, and the point -/
theorem transform_gradient (T : ℝ → Rt) (x : ℝ → P3) (R' : M3) (t' x' : P3) (t : ℝ) (inverted : Bool)
    (hR : HasDerivM (fun s => (T s).R) R' t) (ht : HasDerivP (fun s => (T s).t) t' t) (hx : HasDerivP x x' t) :
    let JR := transformPointRt_JR (T t) (x t) inverted
    let Jt := mulVec (transformPointRt_Jt (T t) inverted) t'
    let Jx := mulVec (transformPointRt_Jx (T t) inverted) x'
    HasDerivP (fun s => transformPointRt (T s) (x s) inverted)
      ⟨inner9 JR.1 R' + Jt.x + Jx.x, inner9 JR.2.1 R' + Jt.y + Jx.y, inner9 JR.2.2 R' + Jt.z + Jx.z⟩ t := by
  obtain ⟨h00, h01, h02, h10, h11, h12, h20, h21, h22⟩ := hR
  obtain ⟨tx, ty, tz⟩ := ht
  obtain ⟨xx, xy, xz⟩ := hx
  cases inverted
  · refine ⟨?_, ?_, ?_⟩
    · have h := ((((h00.mul xx).add (h01.mul xy)).add (h02.mul xz)).const_mul 1).add tx
      refine HasDerivAt.congr_deriv h ?_
      simp [transformPointRt_JR, transformPointRt_Jt, transformPointRt_Jx, rotatePointR_JR, rotatePointR_Jx, inner9, mulVec, identityR]
      ring
    · have h := ((((h10.mul xx).add (h11.mul xy)).add (h12.mul xz)).const_mul 1).add ty
      refine HasDerivAt.congr_deriv h ?_
      simp [transformPointRt_JR, transformPointRt_Jt, transformPointRt_Jx, rotatePointR_JR, rotatePointR_Jx, inner9, mulVec, identityR]
      ring
    · have h := ((((h20.mul xx).add (h21.mul xy)).add (h22.mul xz)).const_mul 1).add tz
      refine HasDerivAt.congr_deriv h ?_
      simp [transformPointRt_JR, transformPointRt_Jt, transformPointRt_Jx, rotatePointR_JR, rotatePointR_Jx, inner9, mulVec, identityR]
      ring
  · have dx := xx.sub tx
    have dy := xy.sub ty
    have dz := xz.sub tz
    refine ⟨?_, ?_, ?_⟩
    · have h := ((((h00.mul dx).add (h10.mul dy)).add (h20.mul dz)).const_mul 1)
      refine HasDerivAt.congr_deriv h ?_
      simp [transformPointRt_JR, transformPointRt_Jt, transformPointRt_Jx, rotatePointR_JR, rotatePointR_Jx, inner9, mulVec, transpose, subP, negM]
      ring
    · have h := ((((h01.mul dx).add (h11.mul dy)).add (h21.mul dz)).const_mul 1)
      refine HasDerivAt.congr_deriv h ?_
      simp [transformPointRt_JR, transformPointRt_Jt, transformPointRt_Jx, rotatePointR_JR, rotatePointR_Jx, inner9, mulVec, transpose, subP, negM]
      ring
    · have h := ((((h02.mul dx).add (h12.mul dy)).add (h22.mul dz)).const_mul 1)
      refine HasDerivAt.congr_deriv h ?_
      simp [transformPointRt_JR, transformPointRt_Jt, transformPointRt_Jx, rotatePointR_JR, rotatePointR_Jx, inner9, mulVec, transpose, subP, negM]
      ring

/-! ### R_aligned_to_vector -/

theorem aligned_core (a b c zx zy zz m : ℝ) (v : P3) (hz1 : zx * zx + zy * zy + zz * zz = 1) (hu : a * a + b * b + c * c = 1)
    (hp : a * zx + b * zy + c * zz = 0) (ex : v.x = zx * m) (ey : v.y = zy * m) (ez : v.z = zz * m) :
    IsRot ⟨a, b, c, zy * c - zz * b, zz * a - zx * c, zx * b - zy * a, zx, zy, zz⟩ ∧
    mulVec ⟨a, b, c, zy * c - zz * b, zz * a - zx * c, zx * b - zy * a, zx, zy, zz⟩ v = ⟨0, 0, m⟩ := by
  have hyy : (zy * c - zz * b) * (zy * c - zz * b) + (zz * a - zx * c) * (zz * a - zx * c) +
      (zx * b - zy * a) * (zx * b - zy * a) = 1 := by
    linear_combination hz1 * (a * a + b * b + c * c) + hu - (a * zx + b * zy + c * zz) * hp
  refine ⟨⟨?_, ?_⟩, ?_⟩
  · unfold Orth
    ext i j
    fin_cases i <;> fin_cases j <;> simp [toMat, Matrix.mul_apply, Fin.sum_univ_three] <;> first
      | linear_combination hu | ring1 | linear_combination hp | linear_combination hz1 | linear_combination hyy
  · simp [toMat, Matrix.det_fin_three]
    linear_combination hyy
  · simp only [mulVec]
    rw [ex, ey, ez]
    ext
    · simp; linear_combination m * hp
    · simp; ring
    · simp; linear_combination m * hz1

/-- **C31** -/
theorem aligned_rotation (v : P3) (hv : v ≠ ⟨0, 0, 0⟩) :
    IsRot (R_aligned_to_vector v) ∧
    mulVec (R_aligned_to_vector v) v = ⟨0, 0, Real.sqrt (v.x ^ 2 + v.y ^ 2 + v.z ^ 2)⟩ := by
  have hpos : 0 < v.x * v.x + v.y * v.y + v.z * v.z := by
    by_contra hn
    apply hv
    have hx : v.x = 0 := by nlinarith [sq_nonneg v.x, sq_nonneg v.y, sq_nonneg v.z]
    have hy : v.y = 0 := by nlinarith [sq_nonneg v.x, sq_nonneg v.y, sq_nonneg v.z]
    have hz : v.z = 0 := by nlinarith [sq_nonneg v.x, sq_nonneg v.y, sq_nonneg v.z]
    ext <;> assumption
  set m := Real.sqrt (v.x * v.x + v.y * v.y + v.z * v.z) with hm
  have hm0 : 0 < m := Real.sqrt_pos.mpr hpos
  have hm2 : m * m = v.x * v.x + v.y * v.y + v.z * v.z := Real.mul_self_sqrt hpos.le
  set zx := v.x / m with hzx
  set zy := v.y / m with hzy
  set zz := v.z / m with hzz
  have ex : v.x = zx * m := by rw [hzx]; field_simp
  have ey : v.y = zy * m := by rw [hzy]; field_simp
  have ez : v.z = zz * m := by rw [hzz]; field_simp
  have hz1 : zx * zx + zy * zy + zz * zz = 1 := by
    have : m * m * (zx * zx + zy * zy + zz * zz) = m * m * 1 := by
      calc _ = (zx * m) * (zx * m) + (zy * m) * (zy * m) + (zz * m) * (zz * m) := by ring
        _ = _ := by rw [← ex, ← ey, ← ez, ← hm2, mul_one]
    exact mul_left_cancel₀ (mul_pos hm0 hm0).ne' this
  -- the first row, before normalization
  have key : ∀ x1 : P3, (x1.x * zx + x1.y * zy + x1.z * zz = 0) → 0 < x1.x * x1.x + x1.y * x1.y + x1.z * x1.z →
      let magx := Real.sqrt (x1.x * x1.x + x1.y * x1.y + x1.z * x1.z)
      let x : P3 := ⟨x1.x / magx, x1.y / magx, x1.z / magx⟩
      let y : P3 := ⟨zy * x.z - zz * x.y, zz * x.x - zx * x.z, zx * x.y - zy * x.x⟩
      IsRot ⟨x.x, x.y, x.z, y.x, y.y, y.z, zx, zy, zz⟩ ∧
      mulVec ⟨x.x, x.y, x.z, y.x, y.y, y.z, zx, zy, zz⟩ v = ⟨0, 0, m⟩ := by
    intro x1 hperp hx1 magx x y
    have hmx : 0 < magx := Real.sqrt_pos.mpr hx1
    have hmx2 : magx * magx = x1.x * x1.x + x1.y * x1.y + x1.z * x1.z := Real.mul_self_sqrt hx1.le
    have e1 : x1.x = x.x * magx := by simp only [x]; field_simp
    have e2 : x1.y = x.y * magx := by simp only [x]; field_simp
    have e3 : x1.z = x.z * magx := by simp only [x]; field_simp
    have hu : x.x * x.x + x.y * x.y + x.z * x.z = 1 := by
      have : magx * magx * (x.x * x.x + x.y * x.y + x.z * x.z) = magx * magx * 1 := by
        calc _ = (x.x * magx) * (x.x * magx) + (x.y * magx) * (x.y * magx) + (x.z * magx) * (x.z * magx) := by ring
          _ = _ := by rw [← e1, ← e2, ← e3, ← hmx2, mul_one]
      exact mul_left_cancel₀ (mul_pos hmx hmx).ne' this
    have hp : x.x * zx + x.y * zy + x.z * zz = 0 := by
      have : magx * (x.x * zx + x.y * zy + x.z * zz) = magx * 0 := by
        rw [mul_zero, ← hperp, e1, e2, e3]; ring
      exact mul_left_cancel₀ hmx.ne' this
    exact aligned_core x.x x.y x.z zx zy zz m v hz1 hu hp ex ey ez
  have esq : Real.sqrt (v.x ^ 2 + v.y ^ 2 + v.z ^ 2) = m := by rw [hm]; congr 1; ring
  rw [esq]
  unfold R_aligned_to_vector
  simp only [← hm, ← hzx, ← hzy, ← hzz]
  by_cases hc : |zx| < 0.9
  · simp only [hc, if_true]
    have hzx2 : zx * zx < 1 := by
      have := abs_lt.mp hc
      norm_num at this
      nlinarith [this.1, this.2]
    exact key ⟨1 - zx * zx, 0 - zx * zy, 0 - zx * zz⟩ (by simp only; linear_combination -zx * hz1) (by
      simp only
      have : (1 - zx * zx) * (1 - zx * zx) + (0 - zx * zy) * (0 - zx * zy) + (0 - zx * zz) * (0 - zx * zz) = 1 - zx * zx := by
        linear_combination zx * zx * hz1
      rw [this]; linarith)
  · simp only [hc, if_false]
    have hzy2 : zy * zy < 1 := by
      have h9 : (0.9 : ℝ) ≤ |zx| := not_lt.mp hc
      have : (0.9 : ℝ) * 0.9 ≤ |zx| * |zx| := mul_le_mul h9 h9 (by norm_num) (abs_nonneg _)
      rw [abs_mul_abs_self] at this
      norm_num at this
      nlinarith [sq_nonneg zz]
    exact key ⟨0 - zy * zx, 1 - zy * zy, 0 - zy * zz⟩ (by simp only; linear_combination -zy * hz1) (by
      simp only
      have : (0 - zy * zx) * (0 - zy * zx) + (1 - zy * zy) * (1 - zy * zy) + (0 - zy * zz) * (0 - zy * zz) = 1 - zy * zy := by
        linear_combination zy * zy * hz1
      rw [this]; linarith)

example : (⟨1, 2, 3⟩ : P3) ≠ ⟨0, 0, 0⟩ := by
  intro h
  have := congrArg P3.x h
  norm_num at this

end Mrcal.Pose
