import Verif.Model.Rodrigues
import Verif.Props.PoseProps
import Verif.Props.AutodiffProps
/-
C26: Rodrigues vectors and rotations.
-/
namespace Mrcal.Pose
open AD

/-! ### specification -/

/-- **Specification**: Rodrigues' formula. The rotation by the angle |r| about the axis r/|r|: cosθ I + (1-cosθ) u uᵗ + sinθ [u]ₓ. No rotation if r=0 -/
noncomputable def rod (r : P3) : Matrix (Fin 3) (Fin 3) ℝ :=
  let θ := mag3 r
  let u : P3 := ⟨r.x / θ, r.y / θ, r.z / θ⟩
  if θ = 0 then 1 else
    Real.cos θ • (1 : Matrix (Fin 3) (Fin 3) ℝ) +
    (1 - Real.cos θ) • !![u.x * u.x, u.x * u.y, u.x * u.z; u.y * u.x, u.y * u.y, u.y * u.z; u.z * u.x, u.z * u.y, u.z * u.z] +
    Real.sin θ • !![0, -u.z, u.y; u.z, 0, -u.x; -u.y, u.x, 0]

theorem norm2_eq (r : P3) : norm2 r = mag3 r * mag3 r := (mag3_sq r).symm
theorem sqrt_norm2 (r : P3) : Real.sqrt (norm2 r) = mag3 r := rfl

/-- the axis -/
noncomputable def axis (r : P3) : P3 := ⟨r.x / mag3 r, r.y / mag3 r, r.z / mag3 r⟩

theorem axis_unit (r : P3) (h : mag3 r ≠ 0) : (axis r).x * (axis r).x + (axis r).y * (axis r).y + (axis r).z * (axis r).z = 1 := by
  have e := mag3_sq r
  simp only [axis]
  field_simp
  linarith [e]

/-- an (angle, axis) matrix, in terms of elements -/
def rodM (c s : ℝ) (u : P3) : M3 :=
  { a00 := c + (1 - c) * u.x * u.x
    a01 := (1 - c) * u.x * u.y - s * u.z
    a02 := (1 - c) * u.x * u.z + s * u.y
    a10 := (1 - c) * u.x * u.y + s * u.z
    a11 := c + (1 - c) * u.y * u.y
    a12 := (1 - c) * u.y * u.z - s * u.x
    a20 := (1 - c) * u.x * u.z - s * u.y
    a21 := (1 - c) * u.y * u.z + s * u.x
    a22 := c + (1 - c) * u.z * u.z }

theorem rodM_rot (c s : ℝ) (u : P3) (hcs : s ^ 2 + c ^ 2 = 1) (hu : u.x * u.x + u.y * u.y + u.z * u.z = 1) : IsRot (rodM c s u) := by
  refine ⟨?_, ?_⟩
  · unfold Orth
    ext i j
    fin_cases i <;> fin_cases j <;> simp [toMat, rodM, Matrix.mul_apply, Fin.sum_univ_three]
    · linear_combination ((1 - c) ^ 2 * u.x ^ 2 + s ^ 2) * hu + (1 - u.x ^ 2) * hcs
    · linear_combination (1 - c) ^ 2 * u.x * u.y * hu - u.x * u.y * hcs
    · linear_combination (1 - c) ^ 2 * u.x * u.z * hu - u.x * u.z * hcs
    · linear_combination (1 - c) ^ 2 * u.x * u.y * hu - u.x * u.y * hcs
    · linear_combination ((1 - c) ^ 2 * u.y ^ 2 + s ^ 2) * hu + (1 - u.y ^ 2) * hcs
    · linear_combination (1 - c) ^ 2 * u.y * u.z * hu - u.y * u.z * hcs
    · linear_combination (1 - c) ^ 2 * u.x * u.z * hu - u.x * u.z * hcs
    · linear_combination (1 - c) ^ 2 * u.y * u.z * hu - u.y * u.z * hcs
    · linear_combination ((1 - c) ^ 2 * u.z ^ 2 + s ^ 2) * hu + (1 - u.z ^ 2) * hcs
  · simp [toMat, rodM, Matrix.det_fin_three]
    linear_combination ((1 - c) * (c ^ 2 + s ^ 2 * (u.x * u.x + u.y * u.y + u.z * u.z)) + s ^ 2) * hu + hcs

theorem identity_rot : IsRot identityR := by
  refine ⟨?_, ?_⟩
  · unfold Orth
    rw [toMat_identity]; simp
  · rw [toMat_identity]; simp

/-- the matrix of the specification, in terms of elements -/
theorem rod_eq (r : P3) : rod r = toMat (if mag3 r = 0 then identityR else rodM (Real.cos (mag3 r)) (Real.sin (mag3 r)) (axis r)) := by
  unfold rod
  by_cases h : mag3 r = 0
  · simp only [h, if_true, toMat_identity]
  · simp only [h, if_false]
    ext i j
    fin_cases i <;> fin_cases j <;> simp [toMat, rodM, axis] <;> ring

theorem eps_pos : 0 < dblEpsilon * dblEpsilon := by unfold dblEpsilon; positivity

theorem R_from_r_nominal (r : P3) (h : dblEpsilon * dblEpsilon ≤ norm2 r) :
    R_from_r r = rodM (Real.cos (mag3 r)) (Real.sin (mag3 r)) (axis r) := by
  unfold R_from_r
  simp only [not_lt.mpr h, if_false, sqrt_norm2]
  have e : ∀ a : ℝ, a * (1 / mag3 r) = a / mag3 r := fun a => by ring
  simp only [e]
  rfl

theorem mag3_ne (r : P3) (h : dblEpsilon * dblEpsilon ≤ norm2 r) : mag3 r ≠ 0 := by
  intro h0
  rw [norm2_eq, h0] at h
  have := eps_pos
  linarith

/-- **C26**: R_from_r() is Rodrigues' formula. Exact if r=0, or if |r| ≥ DBL_EPSILON; other vectors produce exactly the identity -/
theorem R_from_r_meaning (r : P3) :
    (r = ⟨0, 0, 0⟩ ∨ dblEpsilon ≤ mag3 r → toMat (R_from_r r) = rod r) ∧
    (mag3 r < dblEpsilon → R_from_r r = identityR) := by
  have de : 0 < dblEpsilon := by unfold dblEpsilon; positivity
  refine ⟨?_, ?_⟩
  · rintro (h | h)
    · subst h
      rw [rod_eq]
      have : mag3 ⟨0, 0, 0⟩ = 0 := by simp [mag3]
      simp only [this, if_true]
      unfold R_from_r
      have e : norm2 ⟨0, 0, 0⟩ = 0 := by simp [norm2]
      simp only [e, eps_pos, if_true]
    · have hn : dblEpsilon * dblEpsilon ≤ norm2 r := by
        rw [norm2_eq]; exact mul_le_mul h h de.le (de.le.trans h)
      rw [R_from_r_nominal r hn, rod_eq, if_neg (mag3_ne r hn)]
  · intro h
    unfold R_from_r
    have : norm2 r < dblEpsilon * dblEpsilon := by
      rw [norm2_eq]; exact mul_self_lt_mul_self (mag3_nonneg r) h
    simp only [this, if_true]

/-- **C26**: R_from_r() is a rotation, for ANY r -/
theorem R_from_r_rot (r : P3) : IsRot (R_from_r r) := by
  by_cases h : norm2 r < dblEpsilon * dblEpsilon
  · unfold R_from_r
    simp only [h, if_true]
    exact identity_rot
  · have hn := not_lt.mp h
    rw [R_from_r_nominal r hn]
    exact rodM_rot _ _ _ (Real.sin_sq_add_cos_sq _) (axis_unit r (mag3_ne r hn))

theorem mag3_neg (r : P3) : mag3 (negP r) = mag3 r := by simp [mag3, negP]
theorem norm2_neg (r : P3) : norm2 (negP r) = norm2 r := by simp [norm2, negP]

/-- **C26**: the negated vector is the opposite rotation, for ANY r -/
theorem R_from_r_neg (r : P3) : R_from_r (negP r) = transpose (R_from_r r) := by
  unfold R_from_r
  rw [norm2_neg]
  by_cases h : norm2 r < dblEpsilon * dblEpsilon
  · simp only [h, if_true]; rfl
  · simp only [h, if_false, transpose, negP]
    ext <;> simp <;> ring

theorem rod_rot (r : P3) : ∃ M, toMat M = rod r ∧ IsRot M := by
  refine ⟨_, (rod_eq r).symm, ?_⟩
  split
  · exact identity_rot
  · exact rodM_rot _ _ _ (Real.sin_sq_add_cos_sq _) (axis_unit r ‹_›)

/-- the usual inner product -/
def inner3 (a b : P3) : ℝ := a.x * b.x + a.y * b.y + a.z * b.z

/-- **C26**: rotation matrices preserve inner products (so lengths and angles) -/
theorem rot_inner (R : M3) (h : Orth R) (a b : P3) (inverted : Bool) :
    inner3 (rotatePointR R a inverted) (rotatePointR R b inverted) = inner3 a b := by
  obtain ⟨c0, c1, c2, c01, c02, c12⟩ := h.cols
  obtain ⟨r0, r1, r2, r01, r02, r12⟩ := h.rows
  cases inverted
  · simp [inner3, rotatePointR, mulVec]
    linear_combination c0 * a.x * b.x + c1 * a.y * b.y + c2 * a.z * b.z + c01 * (a.x * b.y + a.y * b.x) + c02 * (a.x * b.z + a.z * b.x) + c12 * (a.y * b.z + a.z * b.y)
  · simp [inner3, rotatePointR, mulVec, transpose]
    linear_combination r0 * a.x * b.x + r1 * a.y * b.y + r2 * a.z * b.z + r01 * (a.x * b.y + a.y * b.x) + r02 * (a.x * b.z + a.z * b.x) + r12 * (a.y * b.z + a.z * b.y)

/-- **C26**: the axis doesn't move, the trace is 1+2cosθ -/
theorem R_from_r_axis (r : P3) : mulVec (R_from_r r) r = r ∧
    (dblEpsilon ≤ mag3 r → (R_from_r r).a00 + (R_from_r r).a11 + (R_from_r r).a22 = 1 + 2 * Real.cos (mag3 r)) := by
  have de : 0 < dblEpsilon := by unfold dblEpsilon; positivity
  have nom : dblEpsilon * dblEpsilon ≤ norm2 r → mulVec (R_from_r r) r = r ∧
      (R_from_r r).a00 + (R_from_r r).a11 + (R_from_r r).a22 = 1 + 2 * Real.cos (mag3 r) := by
    intro hn
    rw [R_from_r_nominal r hn]
    have hm := mag3_ne r hn
    have hu := axis_unit r hm
    have ex : r.x = (axis r).x * mag3 r := by simp only [axis]; field_simp
    have ey : r.y = (axis r).y * mag3 r := by simp only [axis]; field_simp
    have ez : r.z = (axis r).z * mag3 r := by simp only [axis]; field_simp
    generalize axis r = u at *
    generalize mag3 r = m at *
    refine ⟨?_, ?_⟩
    · simp only [mulVec, rodM]
      ext
      · simp only [ex, ey, ez]; linear_combination (1 - Real.cos m) * u.x * m * hu
      · simp only [ex, ey, ez]; linear_combination (1 - Real.cos m) * u.y * m * hu
      · simp only [ex, ey, ez]; linear_combination (1 - Real.cos m) * u.z * m * hu
    · simp only [rodM]
      linear_combination (1 - Real.cos m) * hu
  refine ⟨?_, ?_⟩
  · by_cases h : norm2 r < dblEpsilon * dblEpsilon
    · unfold R_from_r
      simp only [h, if_true, identityR, mulVec]
      ext <;> simp
    · exact (nom (not_lt.mp h)).1
  · intro h
    exact (nom (by rw [norm2_eq]; exact mul_le_mul h h de.le (de.le.trans h))).2

/-! ### the gradient of R_from_r -/

/-- θ and the axis, along a path -/
theorem angle_deriv {r : ℝ → P3} {r' : P3} {t : ℝ} (hr : HasDerivP r r' t) (h : mag3 (r t) ≠ 0) :
    HasDerivAt (fun s => mag3 (r s)) ((axis (r t)).x * r'.x + (axis (r t)).y * r'.y + (axis (r t)).z * r'.z) t := by
  obtain ⟨hx, hy, hz⟩ := hr
  have h2 : HasDerivAt (fun s => (r s).x * (r s).x + (r s).y * (r s).y + (r s).z * (r s).z)
      (2 * ((r t).x * r'.x + (r t).y * r'.y + (r t).z * r'.z)) t := by
    have h := ((hx.mul hx).add (hy.mul hy)).add (hz.mul hz)
    exact h.congr_deriv (by ring)
  have hne : (r t).x * (r t).x + (r t).y * (r t).y + (r t).z * (r t).z ≠ 0 := by
    intro h0
    apply h
    unfold mag3
    rw [h0, Real.sqrt_zero]
  have h3 := h2.sqrt hne
  refine HasDerivAt.congr_deriv h3 ?_
  change 2 * ((r t).x * r'.x + (r t).y * r'.y + (r t).z * r'.z) / (2 * mag3 (r t)) = _
  simp only [axis]
  field_simp

theorem axis_deriv {r : ℝ → P3} {r' : P3} {t : ℝ} (hr : HasDerivP r r' t) (h : mag3 (r t) ≠ 0) :
    let w := (axis (r t)).x * r'.x + (axis (r t)).y * r'.y + (axis (r t)).z * r'.z
    HasDerivP (fun s => axis (r s))
      ⟨1 / mag3 (r t) * (r'.x - (axis (r t)).x * w), 1 / mag3 (r t) * (r'.y - (axis (r t)).y * w), 1 / mag3 (r t) * (r'.z - (axis (r t)).z * w)⟩ t := by
  intro w
  have hm := angle_deriv hr h
  obtain ⟨hx, hy, hz⟩ := hr
  refine ⟨?_, ?_, ?_⟩
  · have h1 := hx.div hm h
    refine HasDerivAt.congr_deriv h1 ?_
    simp only [axis, w]; field_simp
  · have h1 := hy.div hm h
    refine HasDerivAt.congr_deriv h1 ?_
    simp only [axis, w]; field_simp
  · have h1 := hz.div hm h
    refine HasDerivAt.congr_deriv h1 ?_
    simp only [axis, w]; field_simp

/-- the linear combination of the three slices of the gradient -/
def comb (J : M3 × M3 × M3) (v : P3) : M3 :=
  ⟨J.1.a00 * v.x + J.2.1.a00 * v.y + J.2.2.a00 * v.z, J.1.a01 * v.x + J.2.1.a01 * v.y + J.2.2.a01 * v.z, J.1.a02 * v.x + J.2.1.a02 * v.y + J.2.2.a02 * v.z,
   J.1.a10 * v.x + J.2.1.a10 * v.y + J.2.2.a10 * v.z, J.1.a11 * v.x + J.2.1.a11 * v.y + J.2.2.a11 * v.z, J.1.a12 * v.x + J.2.1.a12 * v.y + J.2.2.a12 * v.z,
   J.1.a20 * v.x + J.2.1.a20 * v.y + J.2.2.a20 * v.z, J.1.a21 * v.x + J.2.1.a21 * v.y + J.2.2.a21 * v.z, J.1.a22 * v.x + J.2.1.a22 * v.y + J.2.2.a22 * v.z⟩

/-- the gradient, in terms of the axis and the angle -/
theorem R_from_r_J_nominal (r : P3) (h : dblEpsilon * dblEpsilon ≤ norm2 r) (v : P3) :
    let u := axis r
    let c := Real.cos (mag3 r)
    let s := Real.sin (mag3 r)
    let w := u.x * v.x + u.y * v.y + u.z * v.z
    let u' : P3 := ⟨1 / mag3 r * (v.x - u.x * w), 1 / mag3 r * (v.y - u.y * w), 1 / mag3 r * (v.z - u.z * w)⟩
    comb (R_from_r_J r) v =
      { a00 := -s * w + s * w * u.x * u.x + (1 - c) * (u'.x * u.x + u.x * u'.x)
        a01 := s * w * u.x * u.y + (1 - c) * (u'.x * u.y + u.x * u'.y) - (c * w * u.z + s * u'.z)
        a02 := s * w * u.x * u.z + (1 - c) * (u'.x * u.z + u.x * u'.z) + (c * w * u.y + s * u'.y)
        a10 := s * w * u.x * u.y + (1 - c) * (u'.x * u.y + u.x * u'.y) + (c * w * u.z + s * u'.z)
        a11 := -s * w + s * w * u.y * u.y + (1 - c) * (u'.y * u.y + u.y * u'.y)
        a12 := s * w * u.y * u.z + (1 - c) * (u'.y * u.z + u.y * u'.z) - (c * w * u.x + s * u'.x)
        a20 := s * w * u.x * u.z + (1 - c) * (u'.x * u.z + u.x * u'.z) - (c * w * u.y + s * u'.y)
        a21 := s * w * u.y * u.z + (1 - c) * (u'.y * u.z + u.y * u'.z) + (c * w * u.x + s * u'.x)
        a22 := -s * w + s * w * u.z * u.z + (1 - c) * (u'.z * u.z + u.z * u'.z) } := by
  intro u c s w u'
  unfold R_from_r_J
  simp only [not_lt.mpr h, if_false, sqrt_norm2]
  have e : ∀ a : ℝ, a * (1 / mag3 r) = a / mag3 r := fun a => by ring
  simp only [e, comb]
  have ex : r.x / mag3 r = u.x := rfl
  have ey : r.y / mag3 r = u.y := rfl
  have ez : r.z / mag3 r = u.z := rfl
  simp only [ex, ey, ez, u', w]
  change M3.mk _ _ _ _ _ _ _ _ _ = _
  generalize 1 / mag3 r = it
  generalize hc : Real.cos (mag3 r) = c' at *
  generalize hs : Real.sin (mag3 r) = s' at *
  have hc2 : c = c' := hc
  have hs2 : s = s' := hs
  rw [hc2, hs2]
  clear_value u
  ext <;> simp only [] <;> ring

/-- **C26**: the gradient of R_from_r() is the derivative of Rodrigues' formula -/
theorem R_from_r_gradient (r : ℝ → P3) (r' : P3) (t : ℝ) (hr : HasDerivP r r' t) (h : dblEpsilon ≤ mag3 (r t)) (i j : Fin 3) :
    HasDerivAt (fun s => rod (r s) i j) (toMat (comb (R_from_r_J (r t)) r') i j) t := by
  have de : 0 < dblEpsilon := by unfold dblEpsilon; positivity
  have hn : dblEpsilon * dblEpsilon ≤ norm2 (r t) := by
    rw [norm2_eq]; exact mul_le_mul h h de.le (de.le.trans h)
  have hm := mag3_ne _ hn
  have hθ := angle_deriv hr hm
  obtain ⟨hx, hy, hz⟩ := axis_deriv hr hm
  have hc := hθ.cos
  have hs := hθ.sin
  have hc1 := hc.const_sub 1
  -- near t, the angle isn't 0
  have ev : (fun s => rod (r s) i j) =ᶠ[nhds t] fun s => toMat (rodM (Real.cos (mag3 (r s))) (Real.sin (mag3 (r s))) (axis (r s))) i j := by
    have := hθ.continuousAt.eventually_ne hm
    filter_upwards [this] with s hs
    rw [rod_eq, if_neg hs]
  refine HasDerivAt.congr_of_eventuallyEq ?_ ev
  rw [R_from_r_J_nominal _ hn]
  have xx := (hc1.mul hx).mul hx
  have yy := (hc1.mul hy).mul hy
  have zz := (hc1.mul hz).mul hz
  have xy := (hc1.mul hx).mul hy
  have xz := (hc1.mul hx).mul hz
  have yz := (hc1.mul hy).mul hz
  have sx := hs.mul hx
  have sy := hs.mul hy
  have sz := hs.mul hz
  fin_cases i <;> fin_cases j <;> simp only [toMat, rodM]
  · refine HasDerivAt.congr_deriv (hc.add xx) ?_
    simp; ring
  · refine HasDerivAt.congr_deriv (xy.sub sz) ?_
    simp; ring
  · refine HasDerivAt.congr_deriv (xz.add sy) ?_
    simp; ring
  · refine HasDerivAt.congr_deriv (xy.add sz) ?_
    simp; ring
  · refine HasDerivAt.congr_deriv (hc.add yy) ?_
    simp; ring
  · refine HasDerivAt.congr_deriv (yz.sub sx) ?_
    simp; ring
  · refine HasDerivAt.congr_deriv (xz.sub sy) ?_
    simp; ring
  · refine HasDerivAt.congr_deriv (yz.add sx) ?_
    simp; ring
  · refine HasDerivAt.congr_deriv (hc.add zz) ?_
    simp; ring

end Mrcal.Pose
