import Verif.Props.RotateProps
/-
C28: composing Rodrigues vectors.
-/
namespace Mrcal.Pose
open AD

/-! ### quaternions -/

/-- the rotation of the unit quaternion (w,v) -/
def quatM (w : ℝ) (v : P3) : M3 :=
  { a00 := w * w - (v.x * v.x + v.y * v.y + v.z * v.z) + 2 * v.x * v.x
    a01 := 2 * v.x * v.y - 2 * w * v.z
    a02 := 2 * v.x * v.z + 2 * w * v.y
    a10 := 2 * v.x * v.y + 2 * w * v.z
    a11 := w * w - (v.x * v.x + v.y * v.y + v.z * v.z) + 2 * v.y * v.y
    a12 := 2 * v.y * v.z - 2 * w * v.x
    a20 := 2 * v.x * v.z - 2 * w * v.y
    a21 := 2 * v.y * v.z + 2 * w * v.x
    a22 := w * w - (v.x * v.x + v.y * v.y + v.z * v.z) + 2 * v.z * v.z }

/-- the vector part of the product -/
def quatV (w0 w1 : ℝ) (v0 v1 : P3) : P3 :=
  ⟨w1 * v0.x + w0 * v1.x + (v0.y * v1.z - v0.z * v1.y),
   w1 * v0.y + w0 * v1.y + (v0.z * v1.x - v0.x * v1.z),
   w1 * v0.z + w0 * v1.z + (v0.x * v1.y - v0.y * v1.x)⟩

theorem quat_mul (w0 w1 : ℝ) (v0 v1 : P3) :
    mul (quatM w0 v0) (quatM w1 v1) = quatM (w0 * w1 - inner3 v0 v1) (quatV w0 w1 v0 v1) := by
  simp only [mul, vecMul, quatM, quatV, inner3]
  ext <;> simp only [] <;> ring

theorem quat_norm (w0 w1 : ℝ) (v0 v1 : P3) :
    (w0 * w1 - inner3 v0 v1) ^ 2 + norm2 (quatV w0 w1 v0 v1) = (w0 ^ 2 + norm2 v0) * (w1 ^ 2 + norm2 v1) := by
  simp only [quatV, inner3, norm2]
  ring

theorem quat_rodM (A : ℝ) (u : P3) (hu : u.x * u.x + u.y * u.y + u.z * u.z = 1) :
    quatM (Real.cos A) ⟨Real.sin A * u.x, Real.sin A * u.y, Real.sin A * u.z⟩ = rodM (Real.cos (2 * A)) (Real.sin (2 * A)) u := by
  have hcs := Real.sin_sq_add_cos_sq A
  simp only [quatM, rodM, Real.cos_two_mul, Real.sin_two_mul]
  generalize Real.cos A = c at *
  generalize Real.sin A = s at *
  ext <;> simp only []
  · linear_combination -s ^ 2 * hu + (2 * u.x * u.x - 1) * hcs
  · linear_combination 2 * u.x * u.y * hcs
  · linear_combination 2 * u.x * u.z * hcs
  · linear_combination 2 * u.x * u.y * hcs
  · linear_combination -s ^ 2 * hu + (2 * u.y * u.y - 1) * hcs
  · linear_combination 2 * u.y * u.z * hcs
  · linear_combination 2 * u.x * u.z * hcs
  · linear_combination 2 * u.y * u.z * hcs
  · linear_combination -s ^ 2 * hu + (2 * u.z * u.z - 1) * hcs

/-- the vector part of the quaternion of r -/
noncomputable def halfV (r : P3) : P3 :=
  let k := Real.sin (mag3 r / 2) / (mag3 r / 2) / 2
  ⟨k * r.x, k * r.y, k * r.z⟩

theorem rod_quat (r : P3) (h : mag3 r ≠ 0) : rod r = toMat (quatM (Real.cos (mag3 r / 2)) (halfV r)) := by
  rw [rod_eq, if_neg h]
  have := quat_rodM (mag3 r / 2) (axis r) (axis_unit r h)
  rw [show 2 * (mag3 r / 2) = mag3 r by ring] at this
  rw [← this]
  congr 2
  simp only [halfV, axis]
  ext <;> simp only [] <;> field_simp

theorem half_norm (r : P3) (h : mag3 r ≠ 0) : Real.cos (mag3 r / 2) ^ 2 + norm2 (halfV r) = 1 := by
  have hs := Real.sin_sq_add_cos_sq (mag3 r / 2)
  have e := mag3_sq r
  have : norm2 (halfV r) = Real.sin (mag3 r / 2) ^ 2 := by
    have e2 : norm2 (halfV r) = (Real.sin (mag3 r / 2) / (mag3 r / 2) / 2) ^ 2 * (r.x * r.x + r.y * r.y + r.z * r.z) := by
      simp only [halfV, norm2]; ring
    rw [e2, ← e]
    field_simp
  rw [this]; linarith

/-! ### the composition, as real functions -/

/-- the scalar part of the composed quaternion -/
noncomputable def compW (r0 r1 : P3) : ℝ :=
  let A := mag3 r0 / 2
  let B := mag3 r1 / 2
  Real.cos A * Real.cos B - Real.sin A / A * (Real.sin B / B) * inner3 r0 r1 / 4

/-- twice the vector part -/
noncomputable def compV (r0 r1 : P3) : P3 :=
  let A := mag3 r0 / 2
  let B := mag3 r1 / 2
  let sA := Real.sin A / A
  let sB := Real.sin B / B
  ⟨sA * Real.cos B * r0.x + sB * Real.cos A * r1.x + sA * sB * (r0.y * r1.z - r0.z * r1.y) / 2,
   sA * Real.cos B * r0.y + sB * Real.cos A * r1.y + sA * sB * (r0.z * r1.x - r0.x * r1.z) / 2,
   sA * Real.cos B * r0.z + sB * Real.cos A * r1.z + sA * sB * (r0.x * r1.y - r0.y * r1.x) / 2⟩

theorem compW_eq (r0 r1 : P3) : compW r0 r1 =
    Real.cos (mag3 r0 / 2) * Real.cos (mag3 r1 / 2) - inner3 (halfV r0) (halfV r1) := by
  simp only [compW, halfV, inner3]; ring

def scaleP (k : ℝ) (v : P3) : P3 := ⟨v.x * k, v.y * k, v.z * k⟩

theorem compV_eq (r0 r1 : P3) : compV r0 r1 =
    scaleP 2 (quatV (Real.cos (mag3 r0 / 2)) (Real.cos (mag3 r1 / 2)) (halfV r0) (halfV r1)) := by
  simp only [compV, scaleP, quatV, halfV]
  ext <;> simp only [] <;> ring

theorem comp_unit (r0 r1 : P3) (h0 : mag3 r0 ≠ 0) (h1 : mag3 r1 ≠ 0) : 4 * compW r0 r1 ^ 2 + norm2 (compV r0 r1) = 4 := by
  have := quat_norm (Real.cos (mag3 r0 / 2)) (Real.cos (mag3 r1 / 2)) (halfV r0) (halfV r1)
  rw [half_norm r0 h0, half_norm r1 h1, ← compW_eq] at this
  rw [compV_eq]
  simp only [scaleP, norm2] at this ⊢
  linear_combination 4 * this

theorem comp_rod (r0 r1 : P3) (h0 : mag3 r0 ≠ 0) (h1 : mag3 r1 ≠ 0) :
    rod r0 * rod r1 = toMat (quatM (compW r0 r1) (scaleP (1 / 2) (compV r0 r1))) := by
  rw [rod_quat r0 h0, rod_quat r1 h1, ← toMat_mul, quat_mul, ← compW_eq, compV_eq]
  congr 2
  simp only [scaleP]
  ext <;> simp only [] <;> ring

/-- the trace of the product -/
theorem comp_trace (r0 r1 : P3) (h0 : mag3 r0 ≠ 0) (h1 : mag3 r1 ≠ 0) : (rod r0 * rod r1).trace = 4 * compW r0 r1 ^ 2 - 1 := by
  rw [comp_rod r0 r1 h0 h1]
  have := comp_unit r0 r1 h0 h1
  generalize compW r0 r1 = w at *
  generalize compV r0 r1 = v at *
  simp only [Matrix.trace, Matrix.diag, Fin.sum_univ_three, toMat, quatM, scaleP, norm2] at *
  simp
  linear_combination (-1 / 4) * this

/-- what compose_r_core() evaluates if neither rotation is small -/
noncomputable def compForm (r0 r1 : P3) : P3 :=
  let w := compW r0 r1
  let v := compV r0 r1
  if w - 1 > -cEps * cEps / 2 then v
  else if w + 1 < cEps * cEps / 2 then scaleP (-1) v
  else if w < 0 then scaleP ((Real.arccos w - Real.pi) / Real.sqrt (1 - w * w)) v
  else scaleP (Real.arccos w / Real.sqrt (1 - w * w)) v

variable {N : Nat}

theorem mag_x (g : Vec3 N) : g.mag.x = mag3 g.value := by
  simp only [Vec3.mag, Vec3.norm2, Vec3.dot, Val.sqrt, Val.add, Val.ofR, Val.mul, mag3, Vec3.value, zero_add]

theorem half_x (g : Vec3 N) : (g.mag.divC 2).x = mag3 g.value / 2 := by
  simp only [Val.divC, Val.mulC, mag_x]; ring

theorem dot_x (g0 g1 : Vec3 N) : (g0.dot g1).x = inner3 g0.value g1.value := by
  simp only [Vec3.dot, Val.add, Val.ofR, Val.mul, Vec3.value, inner3]; ring

theorem cEps_lt : cEps < 1e-5 := by unfold cEps; norm_num

theorem compCore_value (g0 g1 : Vec3 N) (h0 : 2e-5 ≤ mag3 g0.value) (h1 : 2e-5 ≤ mag3 g1.value) :
    (composeRCore g0 g1).value = compForm g0.value g1.value := by
  have eA := half_x g0
  have eB := half_x g1
  have eI := dot_x g0 g1
  have hA : ¬ (g0.mag.divC 2).x < cEps / 2 := by rw [eA]; have := cEps_lt; have : (0 : ℝ) < cEps := by unfold cEps; norm_num
                                                 linarith
  have hB : ¬ (g1.mag.divC 2).x < cEps := by rw [eB]; have := cEps_lt; linarith
  have hA' : ¬ |(g0.mag.divC 2).x| < 1e-5 := by
    rw [eA, abs_of_nonneg (by linarith)]; linarith
  have hB' : ¬ |(g1.mag.divC 2).x| < 1e-5 := by
    rw [eB, abs_of_nonneg (by linarith)]; linarith
  unfold composeRCore
  simp only [hA, hB, if_false, Val.sinxOverX, hA', hB']
  have ew : ((((g0.mag.divC 2).cos).mul (g1.mag.divC 2).cos).sub
      (((((g0.mag.divC 2).sin.div (g0.mag.divC 2)).mul ((g1.mag.divC 2).sin.div (g1.mag.divC 2))).mul (g0.dot g1)).divC 4)).x =
      compW g0.value g1.value := by
    simp only [Val.sub, Val.mul, Val.cos, Val.sin, Val.div, eI, Val.divC, Val.mulC, compW]
    have e2 : mag3 g0.value * (1 / 2) = mag3 g0.value / 2 := by ring
    have e3 : mag3 g1.value * (1 / 2) = mag3 g1.value / 2 := by ring
    simp only [mag_x, e2, e3]
    ring
  simp only [Val.sub, Val.mul, Val.cos, Val.sin, Val.div, Val.divC, Val.mulC] at ew
  have e2 : mag3 g0.value * (1 / 2) = mag3 g0.value / 2 := by ring
  have e3 : mag3 g1.value * (1 / 2) = mag3 g1.value / 2 := by ring
  simp only [mag_x, e2, e3] at ew
  unfold compForm
  simp only [Val.sub, Val.mul, Val.cos, Val.sin, Val.div, Val.divC, Val.mulC, mag_x, e2, e3, ew]
  split
  · simp only [Vec3.value, compV, Val.add, Vec3.cross, Val.sub, Val.mul]
    ext <;> simp only [] <;> ring
  · split
    · simp only [Vec3.value, compV, Val.add, Vec3.cross, Val.sub, Val.mul, Vec3.mulC, Val.mulC, scaleP]
      ext <;> simp only [] <;> ring
    · split
      · simp only [Vec3.value, compV, Val.add, Vec3.cross, Val.sub, Val.mul, Vec3.mulV, Val.subC, Val.acos, Val.sqrt, Val.ofR, scaleP]
        ext <;> simp only [] <;> ring
      · simp only [Vec3.value, compV, Val.add, Vec3.cross, Val.sub, Val.mul, Vec3.mulV, Val.acos, Val.sqrt, Val.ofR, scaleP]
        ext <;> simp only [] <;> ring

/-! ### the composition is the composition -/

theorem mag_scale (k : ℝ) (v : P3) : mag3 (scaleP k v) = |k| * mag3 v := by
  simp only [mag3, scaleP]
  rw [show v.x * k * (v.x * k) + v.y * k * (v.y * k) + v.z * k * (v.z * k) = k ^ 2 * (v.x * v.x + v.y * v.y + v.z * v.z) by ring,
    Real.sqrt_mul (sq_nonneg k), Real.sqrt_sq_eq_abs]

/-- an (angle, axis) vector -/
theorem rod_of_axis (C : ℝ) (hC : 0 ≤ C) (u : P3) (hu : u.x * u.x + u.y * u.y + u.z * u.z = 1) :
    rod (scaleP (2 * C) u) = toMat (quatM (Real.cos C) ⟨Real.sin C * u.x, Real.sin C * u.y, Real.sin C * u.z⟩) ∧
    mag3 (scaleP (2 * C) u) = 2 * C := by
  have hm : mag3 (scaleP (2 * C) u) = 2 * C := by
    rw [mag_scale, abs_of_nonneg (by linarith)]
    simp [mag3, hu]
  refine ⟨?_, hm⟩
  rw [rod_eq, hm]
  by_cases h : 2 * C = 0
  · have : C = 0 := by linarith
    subst this
    simp [quatM, identityR]
  · rw [if_neg h, quat_rodM C u hu]
    congr 2
    have hC0 : C ≠ 0 := by
      intro h0
      apply h
      rw [h0]; ring
    unfold axis
    rw [hm]
    simp only [scaleP]
    ext <;> simp only [] <;> field_simp

theorem zero_of_norm2 (v : P3) (h : norm2 v = 0) : v = ⟨0, 0, 0⟩ := by
  simp only [norm2] at h
  have h1 := mul_self_nonneg v.x
  have h2 := mul_self_nonneg v.y
  have h3 := mul_self_nonneg v.z
  ext
  · exact mul_self_eq_zero.mp (by linarith)
  · exact mul_self_eq_zero.mp (by linarith)
  · exact mul_self_eq_zero.mp (by linarith)

theorem rod_zero : rod ⟨0, 0, 0⟩ = 1 := by
  unfold rod
  simp [mag3]

theorem compForm_meaning (r0 r1 : P3) (h0 : mag3 r0 ≠ 0) (h1 : mag3 r1 ≠ 0)
    (hc : |compW r0 r1| = 1 ∨ |compW r0 r1| ≤ 1 - cEps * cEps / 2) :
    rod (compForm r0 r1) = rod r0 * rod r1 ∧ mag3 (compForm r0 r1) ≤ Real.pi := by
  rw [comp_rod r0 r1 h0 h1]
  have hu := comp_unit r0 r1 h0 h1
  have he : 0 < cEps * cEps := by unfold cEps; norm_num
  have he1 : cEps * cEps < 1 := by unfold cEps; norm_num
  unfold compForm
  generalize compW r0 r1 = w at *
  generalize compV r0 r1 = v at *
  simp only []
  rcases hc with hc | hc
  · -- the identity
    have hw2 : w ^ 2 = 1 := by rw [← sq_abs, hc]; norm_num
    have hv : v = ⟨0, 0, 0⟩ := zero_of_norm2 v (by linarith)
    subst hv
    have hres : ∀ k, scaleP k ⟨0, 0, 0⟩ = ⟨0, 0, 0⟩ := fun k => by simp [scaleP]
    simp only [hres, ite_self]
    refine ⟨?_, ?_⟩
    · rw [rod_zero, ← toMat_identity]
      congr 1
      have : w * w = 1 := by rw [← sq]; exact hw2
      simp [quatM, identityR, this]
    · simp [mag3]; exact Real.pi_pos.le
  · obtain ⟨hl, hr⟩ := abs_le.mp hc
    have hpos : 0 < 1 - w * w := by nlinarith
    have hs := Real.sqrt_pos.mpr hpos
    have hss := Real.mul_self_sqrt hpos.le
    have hsin : Real.sin (Real.arccos w) = Real.sqrt (1 - w * w) := by rw [Real.sin_arccos, sq]
    have hcos : Real.cos (Real.arccos w) = w := Real.cos_arccos (by linarith) (by linarith)
    rw [if_neg (by linarith), if_neg (by linarith)]
    -- the axis
    have key : ∀ k : ℝ, k = 1 ∨ k = -1 →
        (scaleP (k / (2 * Real.sqrt (1 - w * w))) v).x * (scaleP (k / (2 * Real.sqrt (1 - w * w))) v).x +
        (scaleP (k / (2 * Real.sqrt (1 - w * w))) v).y * (scaleP (k / (2 * Real.sqrt (1 - w * w))) v).y +
        (scaleP (k / (2 * Real.sqrt (1 - w * w))) v).z * (scaleP (k / (2 * Real.sqrt (1 - w * w))) v).z = 1 := by
      intro k hk
      have hk2 : k * k = 1 := by rcases hk with h | h <;> rw [h] <;> norm_num
      simp only [scaleP]
      have hn : v.x * v.x + v.y * v.y + v.z * v.z = 4 * (1 - w * w) := by
        have : norm2 v = v.x * v.x + v.y * v.y + v.z * v.z := rfl
        rw [← this]; linarith
      generalize Real.sqrt (1 - w * w) = s at *
      field_simp
      have e : s ^ 2 * 2 ^ 2 = 4 * (1 - w * w) := by rw [sq, hss]; ring
      have : k ^ 2 * (v.x ^ 2 + v.y ^ 2 + v.z ^ 2) = s ^ 2 * 2 ^ 2 := by
        rw [e, ← hn]
        linear_combination (v.x ^ 2 + v.y ^ 2 + v.z ^ 2) * hk2
      linarith [this]
    split
    · rename_i hneg
      obtain ⟨ha, hb⟩ := rod_of_axis (Real.pi - Real.arccos w) (by linarith [Real.arccos_le_pi w]) _ (key (-1) (Or.inr rfl))
      have e : scaleP ((Real.arccos w - Real.pi) / Real.sqrt (1 - w * w)) v =
          scaleP (2 * (Real.pi - Real.arccos w)) (scaleP (-1 / (2 * Real.sqrt (1 - w * w))) v) := by
        simp only [scaleP]
        ext <;> simp only [] <;> field_simp <;> ring
      rw [e, ha, hb]
      refine ⟨?_, ?_⟩
      · congr 1
        rw [Real.cos_pi_sub, Real.sin_pi_sub, hcos, hsin]
        simp only [scaleP]
        generalize Real.sqrt (1 - w * w) = s at *
        have f : ∀ a : ℝ, s * (a * (-1 / (2 * s))) = -(a * (1 / 2)) := by intro a; field_simp
        simp only [f, quatM]
        ext <;> simp only [] <;> ring
      · have : Real.pi / 2 ≤ Real.arccos w := by
          have := Real.arcsin_nonpos.mpr hneg.le
          unfold Real.arccos
          linarith
        linarith
    · rename_i hneg
      obtain ⟨ha, hb⟩ := rod_of_axis (Real.arccos w) (Real.arccos_nonneg w) _ (key 1 (Or.inl rfl))
      have e : scaleP (Real.arccos w / Real.sqrt (1 - w * w)) v =
          scaleP (2 * Real.arccos w) (scaleP (1 / (2 * Real.sqrt (1 - w * w))) v) := by
        simp only [scaleP]
        ext <;> simp only [] <;> field_simp
      rw [e, ha, hb]
      refine ⟨?_, ?_⟩
      · congr 1
        rw [hcos, hsin]
        simp only [scaleP]
        generalize Real.sqrt (1 - w * w) = s at *
        have f : ∀ a : ℝ, s * (a * (1 / (2 * s))) = a * (1 / 2) := by intro a; field_simp
        simp only [f]
      · have : Real.arccos w ≤ Real.pi / 2 := Real.arccos_le_pi_div_two.mpr (not_lt.mp hneg)
        linarith

/-! ### the API -/

/-- **Specification**: the rotation of r, or its inverse -/
noncomputable def rodInv (r : P3) (inverted : Bool) : Matrix (Fin 3) (Fin 3) ℝ := if inverted then (rod r).transpose else rod r

/-- the vector, possibly negated -/
def flipP (r : P3) (inverted : Bool) : P3 := if inverted then negP r else r

theorem rod_neg (r : P3) : rod (negP r) = (rod r).transpose := by
  rw [rod_eq, rod_eq, ← toMat_transpose, mag3_neg]
  congr 1
  split
  · rfl
  · simp only [rodM, transpose, axis]
    simp only [mag3_neg]
    simp only [negP]
    ext <;> simp only [] <;> ring

theorem rod_flip (r : P3) (inverted : Bool) : rod (flipP r inverted) = rodInv r inverted := by
  cases inverted <;> simp [flipP, rodInv, rod_neg]

theorem flip_value (v : Vec3 N) (inverted : Bool) : (flip v inverted).value = flipP v.value inverted := by
  cases inverted
  · rfl
  · simp only [flip, flipP, if_true, Vec3.value, Vec3.mulC, Val.mulC, negP]
    ext <;> simp only [] <;> ring

theorem flip_mag (r : P3) (inverted : Bool) : mag3 (flipP r inverted) = mag3 r := by
  cases inverted <;> simp [flipP, mag3_neg]

theorem compose_natural {M : Nat} (φ : Fin M → Fin N) (g0 g1 : Vec3 N) :
    composeRCore (reVec φ g0) (reVec φ g1) = reVec φ (composeRCore g0 g1) := by
  have eA : ((reVec φ g0).mag.divC 2) = reVal φ (g0.mag.divC 2) := rfl
  have eB : ((reVec φ g1).mag.divC 2) = reVal φ (g1.mag.divC 2) := rfl
  have hs : ∀ a b : Val N, (reVal φ a).sinxOverX (reVal φ b) = reVal φ (a.sinxOverX b) := by
    intro a b
    by_cases h : |a.x| < 1e-5
    · simp only [Val.sinxOverX, reVal, h, if_true]; rfl
    · simp only [Val.sinxOverX, reVal, h, if_false]; rfl
  have es : ∀ a : Val N, (reVal φ a).sin = reVal φ a.sin := fun a => rfl
  unfold composeRCore
  simp only [eA, eB, es, hs]
  generalize (g0.mag.divC 2).sinxOverX (g0.mag.divC 2).sin = sA
  generalize (g1.mag.divC 2).sinxOverX (g1.mag.divC 2).sin = sB
  simp only [apply_ite (reVec φ)]
  rfl

theorem flip_natural {M : Nat} (φ : Fin M → Fin N) (g : Vec3 N) (inverted : Bool) : flip (reVec φ g) inverted = reVec φ (flip g inverted) := by
  cases inverted <;> rfl

/-- **C28**: asking or not asking for a gradient affects neither the value nor the other gradient -/
theorem compose_wants (r0 r1 : P3) (i0 i1 want0 want1 : Bool) :
    let all := composer r0 r1 i0 i1 true true
    let o := composer r0 r1 i0 i1 want0 want1
    o.r = all.r ∧ o.J0 = (if want0 then all.J0 else none) ∧ o.J1 = (if want1 then all.J1 else none) ∧
    all.J0.isSome ∧ all.J1.isSome := by
  have nat : ∀ {M : Nat} (φ : Fin M → Fin 6), composeRCore (flip (reVec φ (Vec3.init r0 (some 0))) i0) (flip (reVec φ (Vec3.init r1 (some 3))) i1) =
      reVec φ (composeRCore (flip (Vec3.init r0 (some 0)) i0) (flip (Vec3.init r1 (some 3)) i1)) := by
    intro M φ
    rw [flip_natural, flip_natural, compose_natural]
  have i00 : ∀ p g, reVec (Fin.elim0 : Fin 0 → Fin 6) (Vec3.init p g) = Vec3.init p none := by
    intro p g
    simp only [reVec, reVal, Vec3.init]
    congr <;> funext i <;> exact i.elim0
  cases want0 <;> cases want1
  · simp only [composer]
    have e := nat (Fin.elim0 : Fin 0 → Fin 6)
    rw [i00, i00] at e
    simp [e, reVec, reVal, Vec3.value]
  · simp only [composer]
    have e := nat (fun i : Fin 3 => (⟨i.val + 3, by omega⟩ : Fin 6))
    have e1 : reVec (fun i : Fin 3 => (⟨i.val + 3, by omega⟩ : Fin 6)) (Vec3.init r0 (some 0)) = Vec3.init r0 none := by
      simp only [reVec, reVal, Vec3.init]
      congr <;> funext i <;> fin_cases i <;> simp
    have e2 : reVec (fun i : Fin 3 => (⟨i.val + 3, by omega⟩ : Fin 6)) (Vec3.init r1 (some 3)) = Vec3.init r1 (some 0) := by
      simp only [reVec, reVal, Vec3.init]
      congr <;> funext i <;> fin_cases i <;> simp
    rw [e1, e2] at e
    simp [e, reVec, reVal, Vec3.value, gradM, Vec3.grad]
  · simp only [composer]
    have e := nat (fun i : Fin 3 => (⟨i.val, by omega⟩ : Fin 6))
    have e1 : reVec (fun i : Fin 3 => (⟨i.val, by omega⟩ : Fin 6)) (Vec3.init r0 (some 0)) = Vec3.init r0 (some 0) := by
      simp only [reVec, reVal, Vec3.init]
    have e2 : reVec (fun i : Fin 3 => (⟨i.val, by omega⟩ : Fin 6)) (Vec3.init r1 (some 3)) = Vec3.init r1 none := by
      simp only [reVec, reVal, Vec3.init]
      congr <;> funext i <;> fin_cases i <;> simp
    rw [e1, e2] at e
    simp [e, reVec, reVal, Vec3.value, gradM, Vec3.grad]
  · simp only [composer]
    simp

theorem compose_r (r0 r1 : P3) (i0 i1 w0 w1 : Bool) :
    (composer r0 r1 i0 i1 w0 w1).r =
      (composeRCore (flip (Vec3.init r0 (some 0)) i0) (flip (Vec3.init r1 (some 3)) i1) : Vec3 6).value := by
  rw [(compose_wants r0 r1 i0 i1 w0 w1).1]
  rfl

/-- **C28**: compose_r() composes rotations; the result is at most a half-turn. If both rotations are ≥ 2e-5 rad, and the composition is either exactly
the identity or turns by at least ~2e-8 rad -/
theorem compose_meaning (r0 r1 : P3) (i0 i1 w0 w1 : Bool) (h0 : 2e-5 ≤ mag3 r0) (h1 : 2e-5 ≤ mag3 r1)
    (hc : (rodInv r0 i0 * rodInv r1 i1).trace = 3 ∨ (rodInv r0 i0 * rodInv r1 i1).trace ≤ 3 - 4e-16) :
    rod (composer r0 r1 i0 i1 w0 w1).r = rodInv r0 i0 * rodInv r1 i1 ∧
    mag3 (composer r0 r1 i0 i1 w0 w1).r ≤ Real.pi := by
  have v0 : (flip (Vec3.init r0 (some 0)) i0 : Vec3 6).value = flipP r0 i0 := by rw [flip_value, init_value]
  have v1 : (flip (Vec3.init r1 (some 3)) i1 : Vec3 6).value = flipP r1 i1 := by rw [flip_value, init_value]
  rw [compose_r, compCore_value _ _ (by rw [v0, flip_mag]; exact h0) (by rw [v1, flip_mag]; exact h1), v0, v1]
  rw [← rod_flip, ← rod_flip] at hc ⊢
  have p : (0 : ℝ) < 2e-5 := by norm_num
  have n0 : mag3 (flipP r0 i0) ≠ 0 := by rw [flip_mag]; linarith
  have n1 : mag3 (flipP r1 i1) ≠ 0 := by rw [flip_mag]; linarith
  apply compForm_meaning _ _ n0 n1
  rw [comp_trace _ _ n0 n1] at hc
  generalize compW (flipP r0 i0) (flipP r1 i1) = w at *
  rcases hc with hc | hc
  · left
    have : |w| * |w| = 1 := by rw [abs_mul_abs_self]; linarith
    nlinarith [abs_nonneg w]
  · right
    have h2 : |w| ^ 2 ≤ 1 - 1e-16 := by rw [sq_abs]; linarith
    have e : cEps * cEps = 1e-16 := by unfold cEps; norm_num
    rw [e]
    have hb : (1 - 1e-16 : ℝ) ≤ (1 - 1e-16 / 2) ^ 2 := by norm_num
    exact (pow_le_pow_iff_left₀ (abs_nonneg w) (by norm_num) two_ne_zero).mp (h2.trans hb)

/-- **C28**: composing with no rotation does nothing -/
theorem compose_zero (r : P3) (i0 i1 w0 w1 : Bool) :
    (composer ⟨0, 0, 0⟩ r i0 i1 w0 w1).r = flipP r i1 ∧
    (composer r ⟨0, 0, 0⟩ i0 i1 w0 w1).r = flipP r i0 := by
  have hz : ∀ i, flipP ⟨0, 0, 0⟩ i = ⟨0, 0, 0⟩ := by intro i; cases i <;> simp [flipP, negP]
  have e : 0 < cEps := by unfold cEps; norm_num
  have m0 : mag3 ⟨0, 0, 0⟩ = 0 := by simp [mag3]
  have key0 : ∀ g0 g1 : Vec3 6, g0.value = ⟨0, 0, 0⟩ → (composeRCore g0 g1).value = g1.value := by
    intro g0 g1 h
    have hA : (g0.mag.divC 2).x < cEps / 2 := by rw [half_x, h, m0]; linarith
    have hx : g0.x.x = 0 := congrArg P3.x h
    have hy : g0.y.x = 0 := congrArg P3.y h
    have hz : g0.z.x = 0 := congrArg P3.z h
    unfold composeRCore
    simp only [hA, if_true]
    split
    · simp [Vec3.value, Vec3.add, Val.add, hx, hy, hz]
    · have hi : (g0.dot g1).x = 0 := by rw [dot_x, h]; simp [inner3]
      simp [Vec3.value, Val.add, Val.mul, Val.sub, Val.ofR, Val.div, Val.divC, Val.mulC, Vec3.cross, hx, hy, hz, hi]
  have key1 : ∀ g0 g1 : Vec3 6, g1.value = ⟨0, 0, 0⟩ → (composeRCore g0 g1).value = g0.value := by
    intro g0 g1 h
    have hB : (g1.mag.divC 2).x < cEps := by rw [half_x, h, m0]; linarith
    have hx : g1.x.x = 0 := congrArg P3.x h
    have hy : g1.y.x = 0 := congrArg P3.y h
    have hz : g1.z.x = 0 := congrArg P3.z h
    unfold composeRCore
    simp only [hB, if_true]
    split
    · simp [Vec3.value, Vec3.add, Val.add, hx, hy, hz]
    · have hi : (g0.dot g1).x = 0 := by rw [dot_x, h]; simp [inner3]
      simp [Vec3.value, Val.add, Val.mul, Val.sub, Val.ofR, Val.div, Val.divC, Val.mulC, Vec3.cross, hx, hy, hz, hi]
  refine ⟨?_, ?_⟩
  · rw [compose_r, key0 _ _ (by rw [flip_value, init_value, hz]), flip_value, init_value]
  · rw [compose_r, key1 _ _ (by rw [flip_value, init_value, hz]), flip_value, init_value]

/-- **C28**: the inverted flags are equivalent to negating that argument -/
theorem compose_flags_neg (r0 r1 : P3) (i0 i1 w0 w1 : Bool) :
    (composer r0 r1 i0 i1 w0 w1).r = (composer (flipP r0 i0) (flipP r1 i1) false false w0 w1).r := by
  have nat0 : ∀ g0 g1 h0 h1 : Vec3 6, g0.value = h0.value → g1.value = h1.value → (composeRCore g0 g1).value = (composeRCore h0 h1).value := by
    intro g0 g1 h0 h1 e0 e1
    have r0 : reVec (Fin.elim0 : Fin 0 → Fin 6) g0 = reVec Fin.elim0 h0 := by
      simp only [reVec, reVal]
      have hx : g0.x.x = h0.x.x := congrArg P3.x e0
      have hy : g0.y.x = h0.y.x := congrArg P3.y e0
      have hz : g0.z.x = h0.z.x := congrArg P3.z e0
      rw [hx, hy, hz]
      congr <;> funext i <;> exact i.elim0
    have r1 : reVec (Fin.elim0 : Fin 0 → Fin 6) g1 = reVec Fin.elim0 h1 := by
      simp only [reVec, reVal]
      have hx : g1.x.x = h1.x.x := congrArg P3.x e1
      have hy : g1.y.x = h1.y.x := congrArg P3.y e1
      have hz : g1.z.x = h1.z.x := congrArg P3.z e1
      rw [hx, hy, hz]
      congr <;> funext i <;> exact i.elim0
    have a := compose_natural (Fin.elim0 : Fin 0 → Fin 6) g0 g1
    have b := compose_natural (Fin.elim0 : Fin 0 → Fin 6) h0 h1
    rw [r0, r1, b] at a
    exact (congrArg Vec3.value a).symm
  rw [compose_r, compose_r]
  apply nat0
  · rw [flip_value, init_value, flip_value, init_value]; rfl
  · rw [flip_value, init_value, flip_value, init_value]; rfl

/-- rotations of 1 rad about different axes: these meet the hypotheses of the above, and of the gradients below -/
example : (2e-5 : ℝ) < mag3 ⟨1, 0, 0⟩ ∧ (2e-5 : ℝ) < mag3 ⟨0, 1, 0⟩ ∧
    (rodInv ⟨1, 0, 0⟩ true * rodInv ⟨0, 1, 0⟩ false).trace < 3 - 4e-16 ∧ (rodInv ⟨1, 0, 0⟩ true * rodInv ⟨0, 1, 0⟩ false).trace ≠ -1 := by
  have m0 : mag3 ⟨1, 0, 0⟩ = 1 := by simp [mag3]
  have m1 : mag3 ⟨0, 1, 0⟩ = 1 := by simp [mag3]
  rw [← rod_flip, ← rod_flip, comp_trace _ _ (by rw [flip_mag, m0]; norm_num) (by rw [flip_mag, m1]; norm_num), m0, m1]
  have hs := Real.sin_sq_add_cos_sq (1 / 2)
  have hb : 1 / 2 - (1 / 2) ^ 3 / 6 < Real.sin (1 / 2) := Real.sin_gt_sub_cube (by norm_num)
  have hb2 : Real.sin (1 / 2) < 1 / 2 := Real.sin_lt (by norm_num)
  have e : compW (flipP ⟨1, 0, 0⟩ true) (flipP ⟨0, 1, 0⟩ false) = Real.cos (1 / 2) ^ 2 := by
    simp only [compW, flip_mag, m0, m1]
    simp [flipP, negP, inner3]
    ring
  rw [e]
  have hc : Real.cos (1 / 2) ^ 2 ≤ 9 / 10 := by nlinarith
  have hc0 : 1 / 2 ≤ Real.cos (1 / 2) ^ 2 := by nlinarith
  refine ⟨by norm_num, by norm_num, by nlinarith, ?_⟩
  intro h
  nlinarith

/-! ### gradients -/

theorem Tracks.mag {g : Vec3 N} {d : Fin N → ℝ} {r : ℝ → P3} {t : ℝ} (h : TracksV g d r t) (hm : mag3 (r t) ≠ 0) :
    Tracks g.mag d (fun s => mag3 (r s)) t := by
  have hv := h.value
  obtain ⟨h1, h2, h3⟩ := h
  have h4 := (((Tracks.ofR (N := N) (c := 0) (d := d) (t := t)).add (h1.mul h1)).add (h2.mul h2)).add (h3.mul h3)
  have hpos : 0 < (g.dot g).x := by
    rw [dot_x, hv]
    have e := mag3_sq (r t)
    have : 0 < mag3 (r t) * mag3 (r t) := mul_self_pos.mpr hm
    unfold inner3
    linarith
  have h5 := h4.sqrt hpos
  refine h5.congr fun s => ?_
  simp [mag3]

theorem Tracks.dot3 {g0 g1 : Vec3 N} {d : Fin N → ℝ} {r0 r1 : ℝ → P3} {t : ℝ} (h0 : TracksV g0 d r0 t) (h1 : TracksV g1 d r1 t) :
    Tracks (g0.dot g1) d (fun s => inner3 (r0 s) (r1 s)) t := by
  obtain ⟨a1, a2, a3⟩ := h0
  obtain ⟨b1, b2, b3⟩ := h1
  have h4 := (((Tracks.ofR (N := N) (c := 0) (d := d) (t := t)).add (b1.mul a1)).add (b2.mul a2)).add (b3.mul a3)
  refine h4.congr fun s => ?_
  simp only [inner3]; ring

/-- the half-turn ambiguity resolved one way -/
noncomputable def compPos (r0 r1 : P3) : P3 := scaleP (Real.arccos (compW r0 r1) / Real.sqrt (1 - compW r0 r1 * compW r0 r1)) (compV r0 r1)
/-- ... and the other -/
noncomputable def compNeg (r0 r1 : P3) : P3 := scaleP ((Real.arccos (compW r0 r1) - Real.pi) / Real.sqrt (1 - compW r0 r1 * compW r0 r1)) (compV r0 r1)

/-- **autodiff of the nominal branch** -/
theorem compose_tracks {g0 g1 : Vec3 N} {d : Fin N → ℝ} {r0 r1 : ℝ → P3} {t : ℝ} (h0 : TracksV g0 d r0 t) (h1 : TracksV g1 d r1 t)
    (m0 : 2e-5 ≤ mag3 (r0 t)) (m1 : 2e-5 ≤ mag3 (r1 t)) (hc : |compW (r0 t) (r1 t)| < 1 - cEps * cEps / 2) :
    (compW (r0 t) (r1 t) < 0 → TracksV (composeRCore g0 g1) d (fun s => compNeg (r0 s) (r1 s)) t) ∧
    (0 ≤ compW (r0 t) (r1 t) → TracksV (composeRCore g0 g1) d (fun s => compPos (r0 s) (r1 s)) t) := by
  have p5 : (0 : ℝ) < 2e-5 := by norm_num
  have he : 0 < cEps := by unfold cEps; norm_num
  have v0 := h0.value
  have v1 := h1.value
  have eA := half_x g0
  have eB := half_x g1
  rw [v0] at eA
  rw [v1] at eB
  have hA : ¬ (g0.mag.divC 2).x < cEps / 2 := by rw [eA]; have := cEps_lt; linarith
  have hB : ¬ (g1.mag.divC 2).x < cEps := by rw [eB]; have := cEps_lt; linarith
  have hA' : 1e-5 ≤ |(g0.mag.divC 2).x| := by
    rw [eA, abs_of_nonneg (by linarith)]; linarith
  have hB' : 1e-5 ≤ |(g1.mag.divC 2).x| := by
    rw [eB, abs_of_nonneg (by linarith)]; linarith
  have tA := (Tracks.mag h0 (by linarith)).divC (c := 2) (by norm_num)
  have tB := (Tracks.mag h1 (by linarith)).divC (c := 2) (by norm_num)
  have tI := Tracks.dot3 h0 h1
  have sA := tA.sinxOverX hA'
  have sB := tB.sinxOverX hB'
  have tW := (tA.cos.mul tB.cos).sub ((((sA.mul sB).mul tI)).divC (c := 4) (by norm_num))
  have tW' := tW.congr (g := fun s => compW (r0 s) (r1 s)) fun s => rfl
  obtain ⟨a1, a2, a3⟩ := h0
  obtain ⟨b1, b2, b3⟩ := h1
  have c1 := ((sA.mul sB).mul ((a2.mul b3).sub (a3.mul b2))).divC (c := 2) (by norm_num)
  have c2 := ((sA.mul sB).mul ((a3.mul b1).sub (a1.mul b3))).divC (c := 2) (by norm_num)
  have c3 := ((sA.mul sB).mul ((a1.mul b2).sub (a2.mul b1))).divC (c := 2) (by norm_num)
  have x1 := ((((sA.mul tB.cos).mul a1).add ((sB.mul tA.cos).mul b1)).add c1).congr (g := fun s => (compV (r0 s) (r1 s)).x) fun s => rfl
  have x2 := ((((sA.mul tB.cos).mul a2).add ((sB.mul tA.cos).mul b2)).add c2).congr (g := fun s => (compV (r0 s) (r1 s)).y) fun s => rfl
  have x3 := ((((sA.mul tB.cos).mul a3).add ((sB.mul tA.cos).mul b3)).add c3).congr (g := fun s => (compV (r0 s) (r1 s)).z) fun s => rfl
  obtain ⟨hl, hr⟩ := abs_lt.mp hc
  have hW := tW'.1
  simp only [] at hW
  have he2 : 0 < cEps * cEps := by positivity
  have k1 := hl
  have k2 := hr
  rw [hW] at hl hr
  unfold composeRCore
  simp only [hA, hB, if_false]
  rw [hW]
  generalize hw : ((g0.mag.divC 2).cos.mul (g1.mag.divC 2).cos).sub
      (((((g0.mag.divC 2).sinxOverX (g0.mag.divC 2).sin).mul ((g1.mag.divC 2).sinxOverX (g1.mag.divC 2).sin)).mul (g0.dot g1)).divC 4) = W at *
  have hpos : 0 < ((Val.ofR 1).sub (W.mul W)).x := by
    simp only [Val.sub, Val.ofR, Val.mul]; nlinarith
  have tS := ((Tracks.ofR (N := N) (c := 1) (d := d) (t := t)).sub (tW'.mul tW')).sqrt hpos
  have hS : ((Val.ofR 1).sub (W.mul W)).sqrt.x ≠ 0 := (Real.sqrt_pos.mpr hpos).ne'
  have tC := tW'.acos (by linarith) (by linarith)
  rw [if_neg (by linarith), if_neg (by linarith)]
  refine ⟨?_, ?_⟩
  · intro hneg
    rw [if_pos hneg]
    have k := (tC.subC (c := Real.pi)).div tS hS
    exact ⟨x1.mul k, x2.mul k, x3.mul k⟩
  · intro hneg
    rw [if_neg (not_lt.mpr hneg)]
    have k := tC.div tS hS
    exact ⟨x1.mul k, x2.mul k, x3.mul k⟩

theorem flip_tracks {g : Vec3 N} {d : Fin N → ℝ} {r : ℝ → P3} {t : ℝ} (h : TracksV g d r t) (inverted : Bool) :
    TracksV (flip g inverted) d (fun s => flipP (r s) inverted) t := by
  cases inverted
  · exact h
  · obtain ⟨a1, a2, a3⟩ := h
    refine ⟨(a1.mulC (c := -1)).congr fun s => ?_, (a2.mulC (c := -1)).congr fun s => ?_, (a3.mulC (c := -1)).congr fun s => ?_⟩
    all_goals simp only [flipP, if_true, negP]; ring

/-- **C28**: the gradients of compose_r() are its derivatives, with respect to both arguments, for all the inverted flags. If both rotations are
> 2e-5 rad, and the composition turns by at least ~2e-8 rad, but isn't a half-turn -/
theorem compose_gradient (r0 r1 : ℝ → P3) (r0' r1' : P3) (t : ℝ) (i0 i1 : Bool)
    (h0 : HasDerivP r0 r0' t) (h1 : HasDerivP r1 r1' t) (m0 : 2e-5 < mag3 (r0 t)) (m1 : 2e-5 < mag3 (r1 t))
    (hc : (rodInv (r0 t) i0 * rodInv (r1 t) i1).trace < 3 - 4e-16) (hc' : (rodInv (r0 t) i0 * rodInv (r1 t) i1).trace ≠ -1) :
    ∃ J0 J1, (composer (r0 t) (r1 t) i0 i1 true true).J0 = some J0 ∧
      (composer (r0 t) (r1 t) i0 i1 true true).J1 = some J1 ∧
      HasDerivP (fun s => (composer (r0 s) (r1 s) i0 i1 true true).r) (addP (mulVec J0 r0') (mulVec J1 r1')) t := by
  refine ⟨_, _, rfl, rfl, ?_⟩
  have p5 : (0 : ℝ) < 2e-5 := by norm_num
  have t0 := flip_tracks (init_tracks0 (x' := r1') h0) i0
  have t1 := flip_tracks (init_tracks3 (r' := r0') h1) i1
  rw [← rod_flip, ← rod_flip, comp_trace _ _ (by rw [flip_mag]; linarith) (by rw [flip_mag]; linarith)] at hc hc'
  have n0 : mag3 (r0 t) ≠ 0 := by linarith
  have n1 : mag3 (r1 t) ≠ 0 := by linarith
  have hcw : |compW (flipP (r0 t) i0) (flipP (r1 t) i1)| < 1 - cEps * cEps / 2 := by
    generalize compW (flipP (r0 t) i0) (flipP (r1 t) i1) = w at *
    have h2 : |w| ^ 2 < 1 - 1e-16 := by rw [sq_abs]; linarith
    have e : cEps * cEps = 1e-16 := by unfold cEps; norm_num
    rw [e]
    have hb : (1 - 1e-16 : ℝ) ≤ (1 - 1e-16 / 2) ^ 2 := by norm_num
    exact (pow_lt_pow_iff_left₀ (abs_nonneg w) (by norm_num) two_ne_zero).mp (h2.trans_le hb)
  have hw0 : compW (flipP (r0 t) i0) (flipP (r1 t) i1) ≠ 0 := by
    intro h
    apply hc'
    rw [h]; norm_num
  obtain ⟨hneg, hpos⟩ := compose_tracks t0 t1 (by rw [flip_mag]; exact m0.le) (by rw [flip_mag]; exact m1.le) hcw
  -- near t we stay in the same branch
  have c0 := (angle_deriv h0 n0).continuousAt
  have c1 := (angle_deriv h1 n1).continuousAt
  have ev0 : ∀ᶠ s in nhds t, 2e-5 < mag3 (r0 s) := c0.eventually_const_lt m0
  have ev1 : ∀ᶠ s in nhds t, 2e-5 < mag3 (r1 s) := c1.eventually_const_lt m1
  have cw : ContinuousAt (fun s => compW (flipP (r0 s) i0) (flipP (r1 s) i1)) t := by
    obtain ⟨x1, x2, x3⟩ := t0.deriv
    obtain ⟨y1, y2, y3⟩ := t1.deriv
    have hA := c0.div_const 2
    have hB := c1.div_const 2
    have hI := ((x1.continuousAt.mul y1.continuousAt).add (x2.continuousAt.mul y2.continuousAt)).add (x3.continuousAt.mul y3.continuousAt)
    simp only [compW, flip_mag]
    have sc := fun x => Real.continuous_cos.continuousAt (x := x)
    have ss := fun x => Real.continuous_sin.continuousAt (x := x)
    exact ((ContinuousAt.comp (g := Real.cos) (sc _) hA).mul (ContinuousAt.comp (g := Real.cos) (sc _) hB)).sub
      (((((ContinuousAt.comp (g := Real.sin) (ss _) hA).div hA (by simpa using n0)).mul
         ((ContinuousAt.comp (g := Real.sin) (ss _) hB).div hB (by simpa using n1))).mul hI).div_const 4)
  have ev2 : ∀ᶠ s in nhds t, |compW (flipP (r0 s) i0) (flipP (r1 s) i1)| < 1 - cEps * cEps / 2 := cw.abs.eventually_lt_const hcw
  have val : ∀ s, 2e-5 < mag3 (r0 s) → 2e-5 < mag3 (r1 s) → |compW (flipP (r0 s) i0) (flipP (r1 s) i1)| < 1 - cEps * cEps / 2 →
      (composer (r0 s) (r1 s) i0 i1 true true).r =
        if compW (flipP (r0 s) i0) (flipP (r1 s) i1) < 0 then compNeg (flipP (r0 s) i0) (flipP (r1 s) i1)
        else compPos (flipP (r0 s) i0) (flipP (r1 s) i1) := by
    intro s a b c
    have v0 : (flip (Vec3.init (r0 s) (some 0)) i0 : Vec3 6).value = flipP (r0 s) i0 := by rw [flip_value, init_value]
    have v1 : (flip (Vec3.init (r1 s) (some 3)) i1 : Vec3 6).value = flipP (r1 s) i1 := by rw [flip_value, init_value]
    rw [compose_r, compCore_value _ _ (by rw [v0, flip_mag]; exact a.le) (by rw [v1, flip_mag]; exact b.le), v0, v1]
    obtain ⟨hl, hr⟩ := abs_lt.mp c
    unfold compForm
    simp only []
    rw [if_neg (by linarith), if_neg (by linarith)]
    rfl
  have key : HasDerivP (fun s => (composer (r0 s) (r1 s) i0 i1 true true).r)
      ⟨(composeRCore (flip (Vec3.init (r0 t) (some 0)) i0) (flip (Vec3.init (r1 t) (some 3)) i1) : Vec3 6).x.rate (dirs6 r0' r1'),
       (composeRCore (flip (Vec3.init (r0 t) (some 0)) i0) (flip (Vec3.init (r1 t) (some 3)) i1) : Vec3 6).y.rate (dirs6 r0' r1'),
       (composeRCore (flip (Vec3.init (r0 t) (some 0)) i0) (flip (Vec3.init (r1 t) (some 3)) i1) : Vec3 6).z.rate (dirs6 r0' r1')⟩ t := by
    rcases lt_or_gt_of_ne hw0 with hw | hw
    · have ev3 : ∀ᶠ s in nhds t, compW (flipP (r0 s) i0) (flipP (r1 s) i1) < 0 := cw.eventually_lt_const hw
      have hd := (hneg hw).deriv
      have ev : ∀ᶠ s in nhds t, (composer (r0 s) (r1 s) i0 i1 true true).r = compNeg (flipP (r0 s) i0) (flipP (r1 s) i1) := by
        filter_upwards [ev0, ev1, ev2, ev3] with s a b c e
        rw [val s a b c, if_pos e]
      exact ⟨hd.1.congr_of_eventuallyEq (ev.mono fun s h => by simp only [h]),
        hd.2.1.congr_of_eventuallyEq (ev.mono fun s h => by simp only [h]),
        hd.2.2.congr_of_eventuallyEq (ev.mono fun s h => by simp only [h])⟩
    · have ev3 : ∀ᶠ s in nhds t, 0 < compW (flipP (r0 s) i0) (flipP (r1 s) i1) := cw.eventually_const_lt hw
      have hd := (hpos hw.le).deriv
      have ev : ∀ᶠ s in nhds t, (composer (r0 s) (r1 s) i0 i1 true true).r = compPos (flipP (r0 s) i0) (flipP (r1 s) i1) := by
        filter_upwards [ev0, ev1, ev2, ev3] with s a b c e
        rw [val s a b c, if_neg (not_lt.mpr e.le)]
      exact ⟨hd.1.congr_of_eventuallyEq (ev.mono fun s h => by simp only [h]),
        hd.2.1.congr_of_eventuallyEq (ev.mono fun s h => by simp only [h]),
        hd.2.2.congr_of_eventuallyEq (ev.mono fun s h => by simp only [h])⟩
  rw [rate_grads] at key
  exact key

/-! ### gradients at no rotation -/

theorem tiny_core (c s b h k : ℝ) (σ : ℝ) (u v : P3) (hu : u.x * u.x + u.y * u.y + u.z * u.z = 1)
    (hs : s * k = (1 + c) / 2) (hc : (1 - c) * k = s / 2) (hk : b = k * h) (hh : h ≠ 0) (hσ : σ = 1 ∨ σ = -1) :
    -- T v
    let T : P3 := ⟨b * v.x + σ * h * (v.y * u.z - v.z * u.y) / 2 - (b - 1) * (u.x * v.x + u.y * v.y + u.z * v.z) * u.x,
                   b * v.y + σ * h * (v.z * u.x - v.x * u.z) / 2 - (b - 1) * (u.x * v.x + u.y * v.y + u.z * v.z) * u.y,
                   b * v.z + σ * h * (v.x * u.y - v.y * u.x) / 2 - (b - 1) * (u.x * v.x + u.y * v.y + u.z * v.z) * u.z⟩
    let w := u.x * T.x + u.y * T.y + u.z * T.z
    let u' : P3 := ⟨1 / h * (T.x - u.x * w), 1 / h * (T.y - u.y * w), 1 / h * (T.z - u.z * w)⟩
    (⟨-s * w + s * w * u.x * u.x + (1 - c) * (u'.x * u.x + u.x * u'.x),
      s * w * u.x * u.y + (1 - c) * (u'.x * u.y + u.x * u'.y) - (c * w * u.z + s * u'.z),
      s * w * u.x * u.z + (1 - c) * (u'.x * u.z + u.x * u'.z) + (c * w * u.y + s * u'.y),
      s * w * u.x * u.y + (1 - c) * (u'.x * u.y + u.x * u'.y) + (c * w * u.z + s * u'.z),
      -s * w + s * w * u.y * u.y + (1 - c) * (u'.y * u.y + u.y * u'.y),
      s * w * u.y * u.z + (1 - c) * (u'.y * u.z + u.y * u'.z) - (c * w * u.x + s * u'.x),
      s * w * u.x * u.z + (1 - c) * (u'.x * u.z + u.x * u'.z) - (c * w * u.y + s * u'.y),
      s * w * u.y * u.z + (1 - c) * (u'.y * u.z + u.y * u'.z) + (c * w * u.x + s * u'.x),
      -s * w + s * w * u.z * u.z + (1 - c) * (u'.z * u.z + u.z * u'.z)⟩ : M3) =
    if σ = 1 then mul ⟨0, -v.z, v.y, v.z, 0, -v.x, -v.y, v.x, 0⟩ (rodM c s u)
    else mul (rodM c s u) ⟨0, -v.z, v.y, v.z, 0, -v.x, -v.y, v.x, 0⟩ := by
  intro T w u'
  -- the angle's rate
  have hw : w = u.x * v.x + u.y * v.y + u.z * v.z := by
    simp only [w, T]
    linear_combination -(b - 1) * (u.x * v.x + u.y * v.y + u.z * v.z) * hu
  have ux : u'.x = k * (v.x - u.x * (u.x * v.x + u.y * v.y + u.z * v.z)) + σ * (v.y * u.z - v.z * u.y) / 2 := by
    simp only [u', hw, T, hk]; field_simp; ring
  have uy : u'.y = k * (v.y - u.y * (u.x * v.x + u.y * v.y + u.z * v.z)) + σ * (v.z * u.x - v.x * u.z) / 2 := by
    simp only [u', hw, T, hk]; field_simp; ring
  have uz : u'.z = k * (v.z - u.z * (u.x * v.x + u.y * v.y + u.z * v.z)) + σ * (v.x * u.y - v.y * u.x) / 2 := by
    simp only [u', hw, T, hk]; field_simp; ring
  simp only [ux, uy, uz, hw]
  clear ux uy uz hw
  clear_value w T u'
  obtain ⟨vx, vy, vz⟩ := v
  obtain ⟨ux, uy, uz⟩ := u
  simp only [] at *
  rcases hσ with rfl | rfl
  · rw [if_pos rfl]
    simp only [mul, vecMul, rodM]
    ext <;> simp only []
    · linear_combination ((vx - ux * (ux * vx + uy * vy + uz * vz)) * ux + ux * (vx - ux * (ux * vx + uy * vy + uz * vz))) * hc
    · linear_combination ((vx - ux * (ux * vx + uy * vy + uz * vz)) * uy + ux * (vy - uy * (ux * vx + uy * vy + uz * vz))) * hc - (vz - uz * (ux * vx + uy * vy + uz * vz)) * hs + (1 - c) / 2 * vz * hu
    · linear_combination ((vx - ux * (ux * vx + uy * vy + uz * vz)) * uz + ux * (vz - uz * (ux * vx + uy * vy + uz * vz))) * hc + (vy - uy * (ux * vx + uy * vy + uz * vz)) * hs - (1 - c) / 2 * vy * hu
    · linear_combination ((vy - uy * (ux * vx + uy * vy + uz * vz)) * ux + uy * (vx - ux * (ux * vx + uy * vy + uz * vz))) * hc + (vz - uz * (ux * vx + uy * vy + uz * vz)) * hs - (1 - c) / 2 * vz * hu
    · linear_combination ((vy - uy * (ux * vx + uy * vy + uz * vz)) * uy + uy * (vy - uy * (ux * vx + uy * vy + uz * vz))) * hc
    · linear_combination ((vy - uy * (ux * vx + uy * vy + uz * vz)) * uz + uy * (vz - uz * (ux * vx + uy * vy + uz * vz))) * hc - (vx - ux * (ux * vx + uy * vy + uz * vz)) * hs + (1 - c) / 2 * vx * hu
    · linear_combination ((vz - uz * (ux * vx + uy * vy + uz * vz)) * ux + uz * (vx - ux * (ux * vx + uy * vy + uz * vz))) * hc - (vy - uy * (ux * vx + uy * vy + uz * vz)) * hs + (1 - c) / 2 * vy * hu
    · linear_combination ((vz - uz * (ux * vx + uy * vy + uz * vz)) * uy + uz * (vy - uy * (ux * vx + uy * vy + uz * vz))) * hc + (vx - ux * (ux * vx + uy * vy + uz * vz)) * hs - (1 - c) / 2 * vx * hu
    · linear_combination ((vz - uz * (ux * vx + uy * vy + uz * vz)) * uz + uz * (vz - uz * (ux * vx + uy * vy + uz * vz))) * hc
  · rw [if_neg (by norm_num)]
    simp only [mul, vecMul, rodM]
    ext <;> simp only []
    · linear_combination ((vx - ux * (ux * vx + uy * vy + uz * vz)) * ux + ux * (vx - ux * (ux * vx + uy * vy + uz * vz))) * hc
    · linear_combination ((vx - ux * (ux * vx + uy * vy + uz * vz)) * uy + ux * (vy - uy * (ux * vx + uy * vy + uz * vz))) * hc - (vz - uz * (ux * vx + uy * vy + uz * vz)) * hs + (1 - c) / 2 * vz * hu
    · linear_combination ((vx - ux * (ux * vx + uy * vy + uz * vz)) * uz + ux * (vz - uz * (ux * vx + uy * vy + uz * vz))) * hc + (vy - uy * (ux * vx + uy * vy + uz * vz)) * hs - (1 - c) / 2 * vy * hu
    · linear_combination ((vy - uy * (ux * vx + uy * vy + uz * vz)) * ux + uy * (vx - ux * (ux * vx + uy * vy + uz * vz))) * hc + (vz - uz * (ux * vx + uy * vy + uz * vz)) * hs - (1 - c) / 2 * vz * hu
    · linear_combination ((vy - uy * (ux * vx + uy * vy + uz * vz)) * uy + uy * (vy - uy * (ux * vx + uy * vy + uz * vz))) * hc
    · linear_combination ((vy - uy * (ux * vx + uy * vy + uz * vz)) * uz + uy * (vz - uz * (ux * vx + uy * vy + uz * vz))) * hc - (vx - ux * (ux * vx + uy * vy + uz * vz)) * hs + (1 - c) / 2 * vx * hu
    · linear_combination ((vz - uz * (ux * vx + uy * vy + uz * vz)) * ux + uz * (vx - ux * (ux * vx + uy * vy + uz * vz))) * hc - (vy - uy * (ux * vx + uy * vy + uz * vz)) * hs + (1 - c) / 2 * vy * hu
    · linear_combination ((vz - uz * (ux * vx + uy * vy + uz * vz)) * uy + uz * (vy - uy * (ux * vx + uy * vy + uz * vz))) * hc + (vx - ux * (ux * vx + uy * vy + uz * vz)) * hs - (1 - c) / 2 * vx * hu
    · linear_combination ((vz - uz * (ux * vx + uy * vy + uz * vz)) * uz + uz * (vz - uz * (ux * vx + uy * vy + uz * vz))) * hc

/-- the cotangent identities -/
theorem half_cot (B : ℝ) (hs : Real.sin B ≠ 0) :
    Real.sin (2 * B) * (Real.cos B / Real.sin B / 2) = (1 + Real.cos (2 * B)) / 2 ∧
    (1 - Real.cos (2 * B)) * (Real.cos B / Real.sin B / 2) = Real.sin (2 * B) / 2 ∧
    B / Real.tan B = Real.cos B / Real.sin B / 2 * (2 * B) := by
  have h := Real.sin_sq_add_cos_sq B
  refine ⟨?_, ?_, ?_⟩
  · rw [Real.sin_two_mul, Real.cos_two_mul]; field_simp; ring
  · rw [Real.sin_two_mul, Real.cos_two_mul]
    have : 1 - (2 * Real.cos B ^ 2 - 1) = 2 * Real.sin B ^ 2 := by linarith
    rw [this]; field_simp
  · rw [Real.tan_eq_sin_div_cos, div_div_eq_mul_div]; field_simp

/-- the gradients at no rotation: how r must move to match a small rotation on the left, or on the right -/
theorem tiny_meaning (r v : P3) (hr : 2e-8 ≤ mag3 r) (hs : Real.sin (mag3 r / 2) ≠ 0) :
    comb (R_from_r_J r) (mulVec (tinyr0_gradientr0 r) v) = mul ⟨0, -v.z, v.y, v.z, 0, -v.x, -v.y, v.x, 0⟩ (R_from_r r) ∧
    comb (R_from_r_J r) (mulVec (tinyr1_gradientr1 r) v) = mul (R_from_r r) ⟨0, -v.z, v.y, v.z, 0, -v.x, -v.y, v.x, 0⟩ := by
  have de : 0 < dblEpsilon := by unfold dblEpsilon; positivity
  have hge : dblEpsilon ≤ mag3 r := le_trans (by unfold dblEpsilon; norm_num) hr
  have hn : dblEpsilon * dblEpsilon ≤ norm2 r := by
    rw [norm2_eq]; exact mul_le_mul hge hge de.le (de.le.trans hge)
  have hm := mag3_ne r hn
  have hu := axis_unit r hm
  obtain ⟨c1, c2, c3⟩ := half_cot (mag3 r / 2) hs
  rw [show 2 * (mag3 r / 2) = mag3 r by ring] at c1 c2 c3
  have hbig : ¬ norm2 r < 2e-8 * 2e-8 := by
    rw [norm2_eq, not_lt]; exact mul_le_mul hr hr (by norm_num) (mag3_nonneg r)
  have ex : r.x = (axis r).x * mag3 r := by simp only [axis]; field_simp
  have ey : r.y = (axis r).y * mag3 r := by simp only [axis]; field_simp
  have ez : r.z = (axis r).z * mag3 r := by simp only [axis]; field_simp
  have f : ∀ a b k : ℝ, -(a * mag3 r) * (b * mag3 r) * (k - 1) / (4 * (mag3 r / 2) * (mag3 r / 2)) = -a * b * (k - 1) := by
    intro a b k; field_simp; ring
  rw [R_from_r_J_nominal r hn, R_from_r_J_nominal r hn, R_from_r_nominal r hn]
  have T0 := tiny_core (Real.cos (mag3 r)) (Real.sin (mag3 r)) (mag3 r / 2 / Real.tan (mag3 r / 2)) (mag3 r) _ 1 (axis r) v hu c1 c2 c3 hm (Or.inl rfl)
  have T1 := tiny_core (Real.cos (mag3 r)) (Real.sin (mag3 r)) (mag3 r / 2 / Real.tan (mag3 r / 2)) (mag3 r) _ (-1) (axis r) v hu c1 c2 c3 hm (Or.inr rfl)
  rw [if_pos rfl] at T0
  rw [if_neg (by norm_num)] at T1
  have e0 : mulVec (tinyr0_gradientr0 r) v = ⟨mag3 r / 2 / Real.tan (mag3 r / 2) * v.x + 1 * mag3 r * (v.y * (axis r).z - v.z * (axis r).y) / 2 - (mag3 r / 2 / Real.tan (mag3 r / 2) - 1) * ((axis r).x * v.x + (axis r).y * v.y + (axis r).z * v.z) * (axis r).x,
                   mag3 r / 2 / Real.tan (mag3 r / 2) * v.y + 1 * mag3 r * (v.z * (axis r).x - v.x * (axis r).z) / 2 - (mag3 r / 2 / Real.tan (mag3 r / 2) - 1) * ((axis r).x * v.x + (axis r).y * v.y + (axis r).z * v.z) * (axis r).y,
                   mag3 r / 2 / Real.tan (mag3 r / 2) * v.z + 1 * mag3 r * (v.x * (axis r).y - v.y * (axis r).x) / 2 - (mag3 r / 2 / Real.tan (mag3 r / 2) - 1) * ((axis r).x * v.x + (axis r).y * v.y + (axis r).z * v.z) * (axis r).z⟩ := by
    unfold tinyr0_gradientr0
    simp only [hbig, if_false, sqrt_norm2]
    rw [ex, ey, ez]
    simp only [f, mulVec]
    generalize mag3 r / 2 / Real.tan (mag3 r / 2) = b
    ext <;> simp only [] <;> ring
  have e1 : mulVec (tinyr1_gradientr1 r) v = ⟨mag3 r / 2 / Real.tan (mag3 r / 2) * v.x + (-1) * mag3 r * (v.y * (axis r).z - v.z * (axis r).y) / 2 - (mag3 r / 2 / Real.tan (mag3 r / 2) - 1) * ((axis r).x * v.x + (axis r).y * v.y + (axis r).z * v.z) * (axis r).x,
                   mag3 r / 2 / Real.tan (mag3 r / 2) * v.y + (-1) * mag3 r * (v.z * (axis r).x - v.x * (axis r).z) / 2 - (mag3 r / 2 / Real.tan (mag3 r / 2) - 1) * ((axis r).x * v.x + (axis r).y * v.y + (axis r).z * v.z) * (axis r).y,
                   mag3 r / 2 / Real.tan (mag3 r / 2) * v.z + (-1) * mag3 r * (v.x * (axis r).y - v.y * (axis r).x) / 2 - (mag3 r / 2 / Real.tan (mag3 r / 2) - 1) * ((axis r).x * v.x + (axis r).y * v.y + (axis r).z * v.z) * (axis r).z⟩ := by
    unfold tinyr1_gradientr1
    simp only [hbig, if_false, sqrt_norm2]
    rw [ex, ey, ez]
    simp only [f, mulVec]
    generalize mag3 r / 2 / Real.tan (mag3 r / 2) = b
    ext <;> simp only [] <;> ring
  rw [e0, e1]
  exact ⟨T0, T1⟩

theorem tiny_meaning_zero (v : P3) :
    comb (R_from_r_J ⟨0, 0, 0⟩) (mulVec (tinyr0_gradientr0 ⟨0, 0, 0⟩) v) = mul ⟨0, -v.z, v.y, v.z, 0, -v.x, -v.y, v.x, 0⟩ (R_from_r ⟨0, 0, 0⟩) ∧
    comb (R_from_r_J ⟨0, 0, 0⟩) (mulVec (tinyr1_gradientr1 ⟨0, 0, 0⟩) v) = mul (R_from_r ⟨0, 0, 0⟩) ⟨0, -v.z, v.y, v.z, 0, -v.x, -v.y, v.x, 0⟩ := by
  have J0 : R_from_r_J ⟨0, 0, 0⟩ = (⟨0, 0, 0, 0, 0, -1, 0, 1, 0⟩, ⟨0, 0, 1, 0, 0, 0, -1, 0, 0⟩, ⟨0, -1, 0, 1, 0, 0, 0, 0, 0⟩) := by
    unfold R_from_r_J
    have : norm2 ⟨0, 0, 0⟩ < dblEpsilon * dblEpsilon := by simpa [norm2] using eps_pos
    simp only [this, if_true]
  have R0 : R_from_r ⟨0, 0, 0⟩ = identityR := (R_from_r_meaning ⟨0, 0, 0⟩).2 (by simp [mag3]; unfold dblEpsilon; positivity)
  have hsm : norm2 ⟨0, 0, 0⟩ < 2e-8 * 2e-8 := by norm_num [norm2]
  rw [J0, R0]
  unfold tinyr0_gradientr0 tinyr1_gradientr1
  simp only [hsm, if_true]
  simp [comb, mulVec, identityR, mul, vecMul]

theorem comb_add (J : M3 × M3 × M3) (a b : P3) (i j : Fin 3) : toMat (comb J (addP a b)) i j = toMat (comb J a) i j + toMat (comb J b) i j := by
  fin_cases i <;> fin_cases j <;> simp [toMat, comb, addP] <;> ring

theorem comb_zero (J : M3 × M3 × M3) (i j : Fin 3) : toMat (comb J ⟨0, 0, 0⟩) i j = 0 := by
  fin_cases i <;> fin_cases j <;> simp [toMat, comb]

theorem rod_path (r : ℝ → P3) (r' : P3) (t : ℝ) (hr : HasDerivP r r' t) (h : 2e-8 ≤ mag3 (r t) ∨ r t = ⟨0, 0, 0⟩) (i j : Fin 3) :
    HasDerivAt (fun s => rod (r s) i j) (toMat (comb (R_from_r_J (r t)) r') i j) t := by
  rcases h with h | h
  · exact R_from_r_gradient r r' t hr (le_trans (by unfold dblEpsilon; norm_num) h) i j
  · exact R_from_r_gradient_zero r r' t hr h i j

theorem comb_J_zero (v : P3) : comb (R_from_r_J ⟨0, 0, 0⟩) v = ⟨0, -v.z, v.y, v.z, 0, -v.x, -v.y, v.x, 0⟩ := by
  have J0 : R_from_r_J ⟨0, 0, 0⟩ = (⟨0, 0, 0, 0, 0, -1, 0, 1, 0⟩, ⟨0, 0, 1, 0, 0, 0, -1, 0, 0⟩, ⟨0, -1, 0, 1, 0, 0, 0, 0, 0⟩) := by
    unfold R_from_r_J
    have : norm2 ⟨0, 0, 0⟩ < dblEpsilon * dblEpsilon := by simpa [norm2] using eps_pos
    simp only [this, if_true]
  rw [J0]
  simp [comb]

/-- **C28**: compose_r_tinyr0_gradientr0(), compose_r_tinyr1_gradientr1() are the gradients of the composition at no rotation: as r0 leaves 0 with velocity r0',
the composed rotation R(r0) R(r1) moves exactly as R(r) does if r leaves r1 with the velocity (gradient r0' + r1'). And the same for R(r0) R(r1) with r1 leaving 0.
r is any rotation vector that is 0, or is ≥ 2e-8 rad and isn't a whole number of turns -/
theorem compose_tiny_gradient (a r : ℝ → P3) (a' r' : P3) (t : ℝ) (ha : HasDerivP a a' t) (hr : HasDerivP r r' t) (h0 : a t = ⟨0, 0, 0⟩)
    (hm : (2e-8 ≤ mag3 (r t) ∧ Real.sin (mag3 (r t) / 2) ≠ 0) ∨ r t = ⟨0, 0, 0⟩) (i j : Fin 3) :
    HasDerivAt (fun s => (rod (a s) * rod (r s)) i j)
      (toMat (comb (R_from_r_J (r t)) (addP (mulVec (tinyr0_gradientr0 (r t)) a') r')) i j) t ∧
    HasDerivAt (fun s => (rod (r s) * rod (a s)) i j)
      (toMat (comb (R_from_r_J (r t)) (addP r' (mulVec (tinyr1_gradientr1 (r t)) a'))) i j) t := by
  have dr := rod_path r r' t hr (hm.imp (fun h => h.1) id)
  have da := rod_path a a' t ha (Or.inr h0)
  have hR : rod (r t) = toMat (R_from_r (r t)) := ((R_from_r_meaning (r t)).1 (by
    rcases hm with h | h
    · exact Or.inr (le_trans (by unfold dblEpsilon; norm_num) h.1)
    · exact Or.inl h)).symm
  have hT : comb (R_from_r_J (r t)) (mulVec (tinyr0_gradientr0 (r t)) a') = mul ⟨0, -a'.z, a'.y, a'.z, 0, -a'.x, -a'.y, a'.x, 0⟩ (R_from_r (r t)) ∧
      comb (R_from_r_J (r t)) (mulVec (tinyr1_gradientr1 (r t)) a') = mul (R_from_r (r t)) ⟨0, -a'.z, a'.y, a'.z, 0, -a'.x, -a'.y, a'.x, 0⟩ := by
    rcases hm with h | h
    · exact tiny_meaning (r t) a' h.1 h.2
    · rw [h]; exact tiny_meaning_zero a'
  have e0 : rod (a t) = 1 := by rw [h0, rod_zero]
  have eJ : comb (R_from_r_J (a t)) a' = ⟨0, -a'.z, a'.y, a'.z, 0, -a'.x, -a'.y, a'.x, 0⟩ := by rw [h0]; exact comb_J_zero a'
  rw [eJ] at da
  simp only [Matrix.mul_apply, Fin.sum_univ_three]
  refine ⟨?_, ?_⟩
  · have h := (((da i 0).mul (dr 0 j)).add ((da i 1).mul (dr 1 j))).add ((da i 2).mul (dr 2 j))
    refine HasDerivAt.congr_deriv h ?_
    rw [comb_add, hT.1, toMat_mul, e0, hR]
    simp only [Matrix.mul_apply, Fin.sum_univ_three]
    fin_cases i <;> simp [Matrix.one_apply] <;> ring
  · have h := (((dr i 0).mul (da 0 j)).add ((dr i 1).mul (da 1 j))).add ((dr i 2).mul (da 2 j))
    refine HasDerivAt.congr_deriv h ?_
    rw [comb_add, hT.2, toMat_mul, e0, hR]
    simp only [Matrix.mul_apply, Fin.sum_univ_three]
    fin_cases j <;> simp [Matrix.one_apply] <;> ring

/-- a rotation leaving 0, and 1 rad around z -/
example : HasDerivP (fun s => ⟨s, 2 * s, 0⟩) ⟨1, 2, 0⟩ 0 ∧ HasDerivP (fun _ => ⟨0, 0, 1⟩) ⟨0, 0, 0⟩ 0 ∧
    (2e-8 : ℝ) ≤ mag3 ⟨0, 0, 1⟩ ∧ Real.sin (mag3 ⟨0, 0, 1⟩ / 2) ≠ 0 := by
  have m : mag3 ⟨0, 0, 1⟩ = 1 := by simp [mag3]
  refine ⟨⟨hasDerivAt_id' 0, ?_, hasDerivAt_const _ _⟩, ⟨hasDerivAt_const _ _, hasDerivAt_const _ _, hasDerivAt_const _ _⟩, ?_, ?_⟩
  · simpa using (hasDerivAt_id' (0 : ℝ)).const_mul 2
  · rw [m]; norm_num
  · rw [m]
    exact (Real.sin_pos_of_pos_of_lt_pi (by norm_num) (by linarith [Real.pi_gt_three])).ne'

theorem core_zero0_j (g0 g1 : Vec3 N) (h : g0.value = ⟨0, 0, 0⟩) (i : Fin N) :
    (⟨(composeRCore g0 g1).x.j i, (composeRCore g0 g1).y.j i, (composeRCore g0 g1).z.j i⟩ : P3) =
      addP (mulVec (tinyr0_gradientr0 g1.value) ⟨g0.x.j i, g0.y.j i, g0.z.j i⟩) ⟨g1.x.j i, g1.y.j i, g1.z.j i⟩ := by
  have m0 : mag3 ⟨0, 0, 0⟩ = 0 := by simp [mag3]
  have e : 0 < cEps := by unfold cEps; norm_num
  have hA : (g0.mag.divC 2).x < cEps / 2 := by rw [half_x, h, m0]; linarith
  have hx : g0.x.x = 0 := congrArg P3.x h
  have hy : g0.y.x = 0 := congrArg P3.y h
  have hz : g0.z.x = 0 := congrArg P3.z h
  have hB : (g1.mag.divC 2).x < cEps ↔ norm2 g1.value < 2e-8 * 2e-8 := by
    rw [half_x, norm2_eq]
    have := mag3_nonneg g1.value
    unfold cEps
    constructor
    · intro h
      have h2 : mag3 g1.value < 2e-8 := by linarith
      exact mul_self_lt_mul_self this h2
    · intro h
      have h2 : mag3 g1.value < 2e-8 := lt_of_mul_self_lt_mul_self₀ (by norm_num) h
      linarith
  unfold composeRCore tinyr0_gradientr0
  simp only [hA, if_true]
  by_cases hb : norm2 g1.value < 2e-8 * 2e-8
  · simp only [hB.mpr hb, hb, if_true]
    simp [Vec3.add, Val.add, addP, mulVec, identityR]
  · simp only [show ¬ (g1.mag.divC 2).x < cEps from fun h => hb (hB.mp h), hb, if_false]
    have hi : (g0.dot g1).x = 0 := by rw [dot_x, h]; simp [inner3]
    have hBx := half_x g1
    have ht : ∀ x : ℝ, Real.sin x / Real.cos x = Real.tan x := fun x => (Real.tan_eq_sin_div_cos x).symm
    simp only [Val.add, Val.mul, Val.sub, Val.ofR, Val.div, Val.mulC, Val.subC, Val.tan, hi, hBx, sqrt_norm2, ht]
    simp only [Vec3.dot, Vec3.cross, Val.add, Val.mul, Val.sub, Val.ofR, Val.divC, Val.mulC, hx, hy, hz, addP, mulVec]
    have hm : mag3 g1.value ≠ 0 := by
      intro h0
      apply hb
      rw [norm2_eq, h0]; norm_num
    have vx : g1.x.x = g1.value.x := rfl
    have vy : g1.y.x = g1.value.y := rfl
    have vz : g1.z.x = g1.value.z := rfl
    rw [vx, vy, vz]
    generalize mag3 g1.value / 2 / Real.tan (mag3 g1.value / 2) = b
    generalize g1.value = r at *
    generalize mag3 r = m at *
    ext <;> simp only [] <;> field_simp <;> ring

/-- **C28**: compose_r(0, r) reports these gradients too -/
theorem compose_zero_gradient (r : P3) :
    (composer ⟨0, 0, 0⟩ r false false true true).J0 = some (tinyr0_gradientr0 r) ∧
    (composer ⟨0, 0, 0⟩ r false false true true).J1 = some identityR := by
  have key := core_zero0_j (Vec3.init ⟨0, 0, 0⟩ (some 0) : Vec3 6) (Vec3.init r (some 3)) rfl
  have vr : (Vec3.init r (some 3) : Vec3 6).value = r := rfl
  rw [vr] at key
  have hc : composer ⟨0, 0, 0⟩ r false false true true =
      ⟨(composeRCore (Vec3.init ⟨0, 0, 0⟩ (some 0) : Vec3 6) (Vec3.init r (some 3))).value,
       some (gradM (composeRCore (Vec3.init ⟨0, 0, 0⟩ (some 0) : Vec3 6) (Vec3.init r (some 3))) 0 (by omega)),
       some (gradM (composeRCore (Vec3.init ⟨0, 0, 0⟩ (some 0) : Vec3 6) (Vec3.init r (some 3))) 3 (by omega))⟩ := rfl
  rw [hc]
  generalize composeRCore (Vec3.init ⟨0, 0, 0⟩ (some 0) : Vec3 6) (Vec3.init r (some 3)) = G at *
  have k0 := key 0
  have k1 := key 1
  have k2 := key 2
  have k3 := key 3
  have k4 := key 4
  have k5 := key 5
  simp only [Vec3.init, addP, mulVec, P3.mk.injEq] at k0 k1 k2 k3 k4 k5
  norm_num at k0 k1 k2 k3 k4 k5
  simp only [gradM, Vec3.grad, Option.some.injEq]
  refine ⟨?_, ?_⟩
  · ext
    · exact k0.1
    · exact k1.1
    · exact k2.1
    · exact k0.2.1
    · exact k1.2.1
    · exact k2.2.1
    · exact k0.2.2
    · exact k1.2.2
    · exact k2.2.2
  · ext
    · exact k3.1
    · exact k4.1
    · exact k5.1
    · exact k3.2.1
    · exact k4.2.1
    · exact k5.2.1
    · exact k3.2.2
    · exact k4.2.2
    · exact k5.2.2

end Mrcal.Pose
