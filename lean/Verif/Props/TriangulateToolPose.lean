import Verif.Props.TriangulateToolProps
import Verif.Props.QuaternionProps
import Verif.Props.StereoPairProps
/-
C121: the perturbed poses, the largest sensitivity, the corrected model, the coordinates of the plot
-/
namespace Mrcal.TriTool

open Mrcal Mrcal.Pose

theorem isRot_of_cols {M : M3} (c0 : M.a00 * M.a00 + M.a01 * M.a01 + M.a02 * M.a02 = 1) (c1 : M.a10 * M.a10 + M.a11 * M.a11 + M.a12 * M.a12 = 1) (c2 : M.a20 * M.a20 + M.a21 * M.a21 + M.a22 * M.a22 = 1)
    (c01 : M.a00 * M.a10 + M.a01 * M.a11 + M.a02 * M.a12 = 0) (c02 : M.a00 * M.a20 + M.a01 * M.a21 + M.a02 * M.a22 = 0) (c12 : M.a10 * M.a20 + M.a11 * M.a21 + M.a12 * M.a22 = 0)
    (hd : M.a00 * (M.a11 * M.a22 - M.a12 * M.a21) - M.a01 * (M.a10 * M.a22 - M.a12 * M.a20) + M.a02 * (M.a10 * M.a21 - M.a11 * M.a20) = 1) : IsRot M := by
  refine ⟨?_, ?_⟩
  · unfold Orth
    ext i j
    fin_cases i <;> fin_cases j <;> simp [toMat, Matrix.mul_apply, Fin.sum_univ_three] <;> linarith
  · rw [Matrix.det_fin_three]
    simp [toMat]
    linarith

/-- **C121**: what's applied for a yaw or a pitch is the rotation by this angle around this axis: a rotation, that doesn't move the axis, and turns a vector that is perpendicular to it by the angle, following the right-hand rule -/
theorem axis_angle (u : P3) (hu : inner u u = 1) (th : ℝ) : IsRot (axisAngle u th) ∧ mulVec (axisAngle u th) u = u ∧
    ∀ v, inner u v = 0 → mulVec (axisAngle u th) v = addP (scale (Real.cos th) v) (scale (Real.sin th) (cross u v)) := by
  have hsc : Real.sin th ^ 2 + Real.cos th ^ 2 = 1 := Real.sin_sq_add_cos_sq th
  unfold inner at hu
  generalize hs : Real.sin th = s at hsc
  generalize hc : Real.cos th = c at hsc
  obtain ⟨x, y, z⟩ := u
  simp only at hu
  have f00 : (axisAngle ⟨x, y, z⟩ th).a00 = 1 - (1 - c) * (y * y + z * z) := by simp only [axisAngle, skew, Pose.mul, vecMul, hs, hc]; ring
  have f01 : (axisAngle ⟨x, y, z⟩ th).a01 = (1 - c) * (x * y) - s * z := by simp only [axisAngle, skew, Pose.mul, vecMul, hs, hc]; ring
  have f02 : (axisAngle ⟨x, y, z⟩ th).a02 = (1 - c) * (x * z) + s * y := by simp only [axisAngle, skew, Pose.mul, vecMul, hs, hc]; ring
  have f10 : (axisAngle ⟨x, y, z⟩ th).a10 = (1 - c) * (x * y) + s * z := by simp only [axisAngle, skew, Pose.mul, vecMul, hs, hc]; ring
  have f11 : (axisAngle ⟨x, y, z⟩ th).a11 = 1 - (1 - c) * (x * x + z * z) := by simp only [axisAngle, skew, Pose.mul, vecMul, hs, hc]; ring
  have f12 : (axisAngle ⟨x, y, z⟩ th).a12 = (1 - c) * (y * z) - s * x := by simp only [axisAngle, skew, Pose.mul, vecMul, hs, hc]; ring
  have f20 : (axisAngle ⟨x, y, z⟩ th).a20 = (1 - c) * (x * z) - s * y := by simp only [axisAngle, skew, Pose.mul, vecMul, hs, hc]; ring
  have f21 : (axisAngle ⟨x, y, z⟩ th).a21 = (1 - c) * (y * z) + s * x := by simp only [axisAngle, skew, Pose.mul, vecMul, hs, hc]; ring
  have f22 : (axisAngle ⟨x, y, z⟩ th).a22 = 1 - (1 - c) * (x * x + y * y) := by simp only [axisAngle, skew, Pose.mul, vecMul, hs, hc]; ring
  -- with the axis of length 1, the diagonal is c + (1-c) x^2
  have g00 : (axisAngle ⟨x, y, z⟩ th).a00 = c + (1 - c) * (x * x) := by rw [f00]; linear_combination (-(1 - c)) * hu
  have g11 : (axisAngle ⟨x, y, z⟩ th).a11 = c + (1 - c) * (y * y) := by rw [f11]; linear_combination (-(1 - c)) * hu
  have g22 : (axisAngle ⟨x, y, z⟩ th).a22 = c + (1 - c) * (z * z) := by rw [f22]; linear_combination (-(1 - c)) * hu
  have hz : z * z = 1 - x * x - y * y := by linarith
  refine ⟨isRot_of_cols ?_ ?_ ?_ ?_ ?_ ?_ ?_, ?_, ?_⟩
  · rw [g00, f01, f02]; linear_combination (1 - x * x) * hsc + (s ^ 2 + (1 - c) ^ 2 * (x * x)) * hu
  · rw [f10, g11, f12]; linear_combination (1 - y * y) * hsc + (s ^ 2 + (1 - c) ^ 2 * (y * y)) * hu
  · rw [f20, f21, g22]; linear_combination (1 - z * z) * hsc + (s ^ 2 + (1 - c) ^ 2 * (z * z)) * hu
  · rw [g00, f01, f02, f10, g11, f12]; linear_combination (-(x * y)) * hsc + ((1 - c) ^ 2 * (x * y)) * hu
  · rw [g00, f01, f02, f20, f21, g22]; linear_combination (-(x * z)) * hsc + ((1 - c) ^ 2 * (x * z)) * hu
  · rw [f10, g11, f12, f20, f21, g22]; linear_combination (-(y * z)) * hsc + ((1 - c) ^ 2 * (y * z)) * hu
  · rw [g00, f01, f02, f10, g11, f12, f20, f21, g22]
    have e : (c + (1 - c) * (x * x)) * ((c + (1 - c) * (y * y)) * (c + (1 - c) * (z * z)) - ((1 - c) * (y * z) - s * x) * ((1 - c) * (y * z) + s * x)) -
        ((1 - c) * (x * y) - s * z) * (((1 - c) * (x * y) + s * z) * (c + (1 - c) * (z * z)) - ((1 - c) * (y * z) - s * x) * ((1 - c) * (x * z) - s * y)) +
        ((1 - c) * (x * z) + s * y) * (((1 - c) * (x * y) + s * z) * ((1 - c) * (y * z) + s * x) - (c + (1 - c) * (y * y)) * ((1 - c) * (x * z) - s * y)) =
        c ^ 3 + c ^ 2 * (1 - c) * (x * x + y * y + z * z) + s ^ 2 * c * (x * x + y * y + z * z) + s ^ 2 * (1 - c) * (x * x + y * y + z * z) ^ 2 := by ring
    rw [e, hu]
    linear_combination hsc
  · ext
    · simp only [mulVec]; rw [g00, f01, f02]; linear_combination (1 - c) * x * hu
    · simp only [mulVec]; rw [f10, g11, f12]; linear_combination (1 - c) * y * hu
    · simp only [mulVec]; rw [f20, f21, g22]; linear_combination (1 - c) * z * hu
  · intro v hv
    unfold inner at hv
    simp only at hv
    ext
    · simp only [mulVec, addP, scale, cross, hs, hc]; rw [g00, f01, f02]; linear_combination (1 - c) * x * hv
    · simp only [mulVec, addP, scale, cross, hs, hc]; rw [f10, g11, f12]; linear_combination (1 - c) * y * hv
    · simp only [mulVec, addP, scale, cross, hs, hc]; rw [f20, f21, g22]; linear_combination (1 - c) * z * hv

theorem perturb_rot (e : Perturb) (hy : inner e.yawAxis e.yawAxis = 1) (hp : inner e.pitchAxis e.pitchAxis = 1) : IsRot (perturbR e) := by
  have h1 : IsRot (if e.yaw = 0 then identityR else axisAngle e.yawAxis e.yaw) := by
    split_ifs
    · exact identity_rot
    · exact (axis_angle _ hy _).1
  unfold perturbR
  dsimp only
  generalize (if e.yaw = 0 then identityR else axisAngle e.yawAxis e.yaw) = Y at *
  by_cases h : e.pitch = 0
  · rw [if_pos h]; exact h1
  · rw [if_neg h]; exact Quaternion.isRot_of _ _ (axis_angle _ hp _).1 h1

/-- **Specification**: the point turned by the pitch, and then by the yaw -/
noncomputable def turned (e : Perturb) (x : P3) : P3 := mulVec (axisAngle e.yawAxis e.yaw) (mulVec (axisAngle e.pitchAxis e.pitch) x)

theorem axis_zero (u : P3) : axisAngle u 0 = identityR := by
  unfold axisAngle identityR
  simp

theorem mulVec_identity (x : P3) : mulVec identityR x = x := by ext <;> simp [mulVec, identityR]

theorem perturb_turned (e : Perturb) (x : P3) : mulVec (perturbR e) x = turned e x := by
  unfold perturbR turned
  dsimp only
  by_cases hy : e.yaw = 0
  · by_cases hp : e.pitch = 0
    · rw [if_pos hp, if_pos hy, hy, hp, axis_zero, axis_zero, mulVec_identity, mulVec_identity]
    · rw [if_neg hp, if_pos hy, hy, axis_zero, mulVec_mul]
  · by_cases hp : e.pitch = 0
    · rw [if_pos hp, if_neg hy, hp, axis_zero, mulVec_identity]
    · rw [if_neg hp, if_neg hy, mulVec_mul]

/-- the pose before it is converted to rt -/
theorem perturb_Rt (T01 : Rt) (hT : IsRot T01.R) (R : M3) (x : P3) : transformPointRt (composeRt (invertRt T01) ⟨R, ⟨0, 0, 0⟩⟩ false false) x false = transformPointRt T01 (mulVec R x) true := by
  rw [compose_transform]
  have : transformPointRt ⟨R, ⟨0, 0, 0⟩⟩ x false = mulVec R x := by
    ext <;> simp [transformPointRt, rotatePointR, addP]
  rw [this, (invert_transform T01 _ hT.1).1]

/-- **C121**: the perturbed pose: a point is turned by the pitch and by the yaw in the coordinates of camera 0; then it's transformed to camera 1 as before; then it's shifted. (`hr`: the rotation vector of this rotation has the full
precision: see C46) -/
theorem perturbed_meaning (T01 : Rt) (hT : IsRot T01.R) (e : Perturb) (hy : inner e.yawAxis e.yawAxis = 1) (hp : inner e.pitchAxis e.pitchAxis = 1)
    (hr : Stereo.Representable (Pose.mul (transpose T01.R) (perturbR e))) (x : P3) :
    transformPointRt (Rt_from_rt (perturbed T01 e)) x false = subP (transformPointRt T01 (turned e x) true) e.t := by
  have hrot : IsRot (composeRt (invertRt T01) ⟨perturbR e, ⟨0, 0, 0⟩⟩ false false).R := compose_rot _ _ _ _ (ModelDiff.invert_rot _ hT) (perturb_rot e hy hp)
  have hR : (composeRt (invertRt T01) ⟨perturbR e, ⟨0, 0, 0⟩⟩ false false).R = Pose.mul (transpose T01.R) (perturbR e) := by
    simp [composeRt, invertRt]
  have hround : R_from_r (r_from_R (composeRt (invertRt T01) ⟨perturbR e, ⟨0, 0, 0⟩⟩ false false).R) = (composeRt (invertRt T01) ⟨perturbR e, ⟨0, 0, 0⟩⟩ false false).R := by
    refine Stereo.Representable.roundtrip ?_ hrot
    rw [hR]; exact hr
  rw [← perturb_turned, ← perturb_Rt T01 hT]
  unfold perturbed Rt_from_rt rt_from_Rt
  dsimp only
  rw [hround]
  ext <;> simp [transformPointRt, addP, subP] <;> ring

/-- **C121**: no perturbation: the pose that the models have -/
theorem perturbed_zero (T01 : Rt) (hT : IsRot T01.R) (u v : P3) (hr : Stereo.Representable (transpose T01.R)) (x : P3) :
    transformPointRt (Rt_from_rt (perturbed T01 ⟨⟨0, 0, 0⟩, 0, u, 0, v⟩)) x false = transformPointRt T01 x true := by
  have e0 : perturbR ⟨⟨0, 0, 0⟩, 0, u, 0, v⟩ = identityR := by unfold perturbR; simp
  have hrot : IsRot (composeRt (invertRt T01) ⟨identityR, ⟨0, 0, 0⟩⟩ false false).R := compose_rot _ _ _ _ (ModelDiff.invert_rot _ hT) identity_rot
  have hR : (composeRt (invertRt T01) ⟨identityR, ⟨0, 0, 0⟩⟩ false false).R = transpose T01.R := by
    simp only [composeRt, invertRt]
    ext <;> simp [Pose.mul, vecMul, identityR, transpose]
  have hround : R_from_r (r_from_R (composeRt (invertRt T01) ⟨identityR, ⟨0, 0, 0⟩⟩ false false).R) = (composeRt (invertRt T01) ⟨identityR, ⟨0, 0, 0⟩⟩ false false).R := by
    refine Stereo.Representable.roundtrip ?_ hrot
    rw [hR]; exact hr
  have := perturb_Rt T01 hT identityR x
  rw [mulVec_identity] at this
  rw [← this]
  unfold perturbed Rt_from_rt rt_from_Rt
  rw [e0]
  dsimp only
  rw [hround]
  ext <;> simp [transformPointRt, addP, subP]

/-! ### the largest sensitivity -/

theorem worst_spec {X : Type} (r : X → ℝ) (range0 : ℝ) : ∀ (l : List X) (b b' : ℝ × Option X), worst r range0 l b = some b' →
    b.1 ≤ b'.1 ∧ (∀ y ∈ l, r y ≠ 0 ∧ |r y - range0| ≤ b'.1) ∧ (b' = b ∨ b.1 < b'.1 ∧ ∃ x ∈ l, b'.2 = some x ∧ |r x - range0| = b'.1) := by
  intro l
  induction l with
  | nil =>
    intro b b' h
    rw [worst] at h
    injection h with h
    subst h
    exact ⟨le_refl _, fun y hy => by simp at hy, Or.inl rfl⟩
  | cons x l ih =>
    intro b b' h
    rw [worst] at h
    by_cases h0 : r x = 0
    · rw [if_pos h0] at h; cases h
    · rw [if_neg h0] at h
      by_cases hb : |r x - range0| > b.1
      · rw [if_pos hb] at h
        obtain ⟨i1, i2, i3⟩ := ih _ _ h
        simp only at i1
        refine ⟨hb.le.trans i1, ?_, Or.inr ⟨lt_of_lt_of_le hb i1, ?_⟩⟩
        · intro y hy
          rcases List.mem_cons.1 hy with rfl | hy
          · exact ⟨h0, i1⟩
          · exact i2 y hy
        · rcases i3 with i3 | ⟨-, y, hy, i3⟩
          · exact ⟨x, List.mem_cons_self, by rw [i3], by rw [i3]⟩
          · exact ⟨y, List.mem_cons_of_mem _ hy, i3⟩
      · rw [if_neg hb] at h
        obtain ⟨i1, i2, i3⟩ := ih _ _ h
        refine ⟨i1, ?_, ?_⟩
        · intro y hy
          rcases List.mem_cons.1 hy with rfl | hy
          · exact ⟨h0, (not_lt.1 hb).trans i1⟩
          · exact i2 y hy
        · rcases i3 with i3 | ⟨i4, y, hy, i3⟩
          · exact Or.inl i3
          · exact Or.inr ⟨i4, y, List.mem_cons_of_mem _ hy, i3⟩

/-- **C121**: the reported sensitivity is the largest one of the samples, and the reported direction has it. There's no direction only if no sample makes a difference. If the rays of any sample diverge, the tool exits -/
theorem worst_largest {X : Type} (r : X → ℝ) (range0 : ℝ) (l : List X) :
    (worst r range0 l (0, none) = none ↔ ∃ x ∈ l, r x = 0) ∧
    ∀ w d, worst r range0 l (0, none) = some (w, d) → (∀ y ∈ l, |r y - range0| ≤ w) ∧ ((w = 0 ∧ d = none) ∨ (0 < w ∧ ∃ x ∈ l, d = some x ∧ |r x - range0| = w)) := by
  constructor
  · have : ∀ (l : List X) b, worst r range0 l b = none ↔ ∃ x ∈ l, r x = 0 := by
      intro l
      induction l with
      | nil => intro b; simp [worst]
      | cons x l ih =>
        intro b
        rw [worst]
        by_cases h0 : r x = 0
        · rw [if_pos h0]; exact ⟨fun _ => ⟨x, List.mem_cons_self, h0⟩, fun _ => rfl⟩
        · rw [if_neg h0, ih]
          constructor
          · rintro ⟨y, hy, h⟩; exact ⟨y, List.mem_cons_of_mem _ hy, h⟩
          · rintro ⟨y, hy, h⟩
            rcases List.mem_cons.1 hy with rfl | hy
            · exact absurd h h0
            · exact ⟨y, hy, h⟩
    exact this l _
  · intro w d h
    obtain ⟨-, h2, h3⟩ := worst_spec r range0 l _ _ h
    refine ⟨fun y hy => (h2 y hy).2, ?_⟩
    rcases h3 with h3 | ⟨h4, h3⟩
    · injection h3 with h3 h4; exact Or.inl ⟨h3, h4⟩
    · exact Or.inr ⟨h4, h3⟩

/-! ### the axes -/

theorem inner_pos {v : P3} (h : v ≠ ⟨0, 0, 0⟩) : 0 < inner v v := by
  unfold inner
  by_contra hc
  apply h
  have h1 := mul_self_nonneg v.x
  have h2 := mul_self_nonneg v.y
  have h3 := mul_self_nonneg v.z
  ext
  · exact mul_self_eq_zero.1 (by linarith)
  · exact mul_self_eq_zero.1 (by linarith)
  · exact mul_self_eq_zero.1 (by linarith)

theorem unit_inner {v : P3} (h : v ≠ ⟨0, 0, 0⟩) : inner (scale (1 / mag v) v) (scale (1 / mag v) v) = 1 := by
  have hp := inner_pos h
  have e : inner (scale (1 / mag v) v) (scale (1 / mag v) v) = inner v v / (mag v * mag v) := by
    have : mag v ≠ 0 := (Real.sqrt_pos.2 hp).ne'
    simp only [inner, scale]; field_simp
  rw [e]
  unfold mag
  rw [Real.mul_self_sqrt hp.le, div_self hp.ne']

/-- the axes have length 1 if the cameras aren't at the same place, and the point isn't on the line through them -/
theorem axes_unit (p0 : P3) (T01 : Rt) (h : cross p0 T01.t ≠ ⟨0, 0, 0⟩) : inner (epipolarNormal p0 T01) (epipolarNormal p0 T01) = 1 ∧ inner (pitchAxis T01) (pitchAxis T01) = 1 ∧
    inner (epipolarNormal p0 T01) p0 = 0 ∧ inner (epipolarNormal p0 T01) T01.t = 0 ∧ 0 ≤ (epipolarNormal p0 T01).y := by
  have ht : T01.t ≠ ⟨0, 0, 0⟩ := by
    intro e
    apply h
    rw [e]; ext <;> simp [cross]
  have hu := unit_inner h
  unfold epipolarNormal
  dsimp only
  generalize hk : 1 / mag (cross p0 T01.t) = k at *
  split_ifs with hy
  · refine ⟨?_, unit_inner ht, ?_, ?_, ?_⟩
    · simp only [inner, scale] at hu ⊢; linear_combination hu
    · simp only [inner, scale, cross]; ring
    · simp only [inner, scale, cross]; ring
    · show 0 ≤ -1 * _
      linarith
  · refine ⟨hu, unit_inner ht, ?_, ?_, not_lt.1 hy⟩
    · simp only [inner, scale, cross]; ring
    · simp only [inner, scale, cross]; ring

/-! ### the correction -/

theorem steps_some (err : ℝ × ℝ → ℝ) (d : ℝ × ℝ) : ∀ (fuel i : Nat) (x : ℝ × ℝ), steps err d fuel i = some x → err x < 1e6 ∧ ∃ j : Nat, i ≤ j ∧ j < i + fuel ∧ x = (j * d.1, j * d.2) := by
  intro fuel
  induction fuel with
  | zero => intro i x h; simp [steps] at h
  | succ n ih =>
    intro i x h
    rw [steps] at h
    split_ifs at h with hc
    · injection h with h
      subst h
      exact ⟨hc, i, le_refl _, by omega, rfl⟩
    · obtain ⟨h1, j, h2, h3, h4⟩ := ih _ _ h
      exact ⟨h1, j, by omega, by omega, h4⟩

theorem steps_none (err : ℝ × ℝ → ℝ) (d : ℝ × ℝ) : ∀ (fuel i : Nat), steps err d fuel i = none ↔ ∀ j : Nat, i ≤ j → j < i + fuel → 1e6 ≤ err (j * d.1, j * d.2) := by
  intro fuel
  induction fuel with
  | zero => intro i; simp only [steps, true_iff]; intro j h1 h2; omega
  | succ n ih =>
    intro i
    rw [steps]
    split_ifs with hc
    · simp only [reduceCtorEq, false_iff]
      intro h
      exact absurd hc (not_lt.2 (h i (le_refl _) (by omega)))
    · rw [ih]
      constructor
      · intro h j h1 h2
        by_cases e : j = i
        · rw [e]; exact not_lt.1 hc
        · exact h j (by omega) (by omega)
      · intro h j h1 h2; exact h j (by omega) (by omega)

/-- **Specification**: the angles that are tried: up to 179 steps of yaw or of pitch, in either direction -/
def Tried (step : ℝ) (x : ℝ × ℝ) : Prop := ∃ j : Nat, j < 180 ∧ (x = (j * step, 0) ∨ x = (-(j * step), 0) ∨ x = (0, j * step) ∨ x = (0, -(j * step)))

/-- **C121**: the correction starts from angles that were tried, where the error is below the limit; there are none only if no angles that are tried have this -/
theorem start_spec (err : ℝ × ℝ → ℝ) (step : ℝ) : (∀ x, start err step = some x → err x < 1e6 ∧ Tried step x) ∧ (start err step = none ↔ ∀ x, Tried step x → 1e6 ≤ err x) := by
  have z : ∀ x : ℝ × ℝ, err (0, 0) < 1e6 → x = (0, 0) → err x < 1e6 ∧ Tried step x := by
    rintro x h rfl
    exact ⟨h, 0, by norm_num, Or.inl (by simp)⟩
  unfold start
  by_cases h0 : err (0, 0) < 1e6
  · rw [if_pos h0]
    refine ⟨fun x h => z x h0 (Option.some.inj h).symm, ?_⟩
    simp only [reduceCtorEq, false_iff]
    intro h
    exact absurd h0 (not_lt.2 (h (0, 0) (z _ h0 rfl).2))
  · rw [if_neg h0]
    constructor
    · intro x h
      obtain ⟨d, hd, h⟩ := List.exists_of_findSome?_eq_some h
      obtain ⟨h1, j, -, h2, h3⟩ := steps_some _ _ _ _ _ h
      refine ⟨h1, j, by omega, ?_⟩
      simp only [List.mem_cons, List.not_mem_nil, or_false] at hd
      rcases hd with rfl | rfl | rfl | rfl
      · left; rw [h3]; simp
      · right; left; rw [h3]; simp
      · right; right; left; rw [h3]; simp
      · right; right; right; rw [h3]; simp
    · rw [List.findSome?_eq_none_iff]
      simp only [List.mem_cons, List.not_mem_nil, or_false, forall_eq_or_imp, forall_eq, steps_none]
      constructor
      · rintro ⟨h1, h2, h3, h4⟩ x ⟨j, hj, hx⟩
        rcases hx with rfl | rfl | rfl | rfl
        · have := h1 j (by omega) (by omega); simpa using this
        · have := h2 j (by omega) (by omega); simpa using this
        · have := h3 j (by omega) (by omega); simpa using this
        · have := h4 j (by omega) (by omega); simpa using this
      · intro h
        refine ⟨?_, ?_, ?_, ?_⟩ <;> intro j _ hj
        · exact h _ ⟨j, by omega, Or.inl (by simp)⟩
        · exact h _ ⟨j, by omega, Or.inr (Or.inl (by simp))⟩
        · exact h _ ⟨j, by omega, Or.inr (Or.inr (Or.inl (by simp)))⟩
        · exact h _ ⟨j, by omega, Or.inr (Or.inr (Or.inr (by simp)))⟩

/-- **C121, false**: "the search is for angles where the rays converge": a point that's more than 1km from where it should be has the same error as rays that diverge, or a larger one -/
theorem far_wrong (c0 : Camera) (q0 : P2) (range : ℝ) (point : ℝ × ℝ → P3) (x : ℝ × ℝ) (h : 1000 ≤ |mag (point x) - range|) : 1e6 ≤ rangeErr c0 q0 range point x := by
  unfold rangeErr
  dsimp only
  split_ifs with h0
  · exact le_refl _
  · have : (1000 : ℝ) * 1000 ≤ |mag (point x) - range| * |mag (point x) - range| := mul_le_mul h h (by norm_num) (abs_nonneg _)
    rw [abs_mul_abs_self] at this
    nlinarith [mul_self_nonneg (100 * ((c0.project (point x)).q.x - q0.x)), mul_self_nonneg (100 * ((c0.project (point x)).q.y - q0.y))]

/-- **C121, false**: "if the correction can't be computed, this is reported": it's an exception; --make-corrected-model1 writes no model -/
theorem correct_wrong (c0 : Camera) (T01 : Rt) (p0 : P3) (err : ℝ × ℝ → ℝ) (minimize : (ℝ × ℝ → ℝ) → ℝ × ℝ → ℝ × ℝ) (step : ℝ) (h : ∀ x, Tried step x → 1e6 ≤ err x) :
    correct c0 T01 p0 err minimize step true = .nameError := by
  unfold correct
  rw [if_pos rfl, (start_spec err step).2.2 h]

/-- **Specification**: the perturbation that corrects: only a yaw and a pitch -/
noncomputable def correction (p0 : P3) (T01 : Rt) (x : ℝ × ℝ) : Perturb := ⟨⟨0, 0, 0⟩, x.1, epipolarNormal p0 T01, x.2, pitchAxis T01⟩

/-- the composition of these poses has the full precision: see C46 -/
def ComposeExact (T0 T1 : RtV) : Prop :=
  (2e-5 ≤ mag3 T0.r ∧ 2e-5 ≤ mag3 T1.r ∧ ((rodInv T0.r false * rodInv T1.r false).trace = 3 ∨ (rodInv T0.r false * rodInv T1.r false).trace ≤ 3 - 4e-16)) ∨
  (T1.r = ⟨0, 0, 0⟩ ∧ (1e-5 ≤ mag3 T0.r ∨ T0.r = ⟨0, 0, 0⟩)) ∨ (T0.r = ⟨0, 0, 0⟩ ∧ (1e-5 ≤ mag3 T1.r ∨ T1.r = ⟨0, 0, 0⟩))

theorem ComposeExact.eq {T0 T1 : RtV} (h : ComposeExact T0 T1) : Rt_from_rt (composert T0 T1 false false).rt = composeRt (Rt_from_rt T0) (Rt_from_rt T1) false false := by
  rcases h with ⟨h0, h1, h2⟩ | h | h
  · exact compose_rt_Rt _ _ _ _ h0 h1 h2
  · exact compose_rt_Rt_zero _ _ _ _ (Or.inr h)
  · exact compose_rt_Rt_zero _ _ _ _ (Or.inl h)

/-- **C121**: the corrected model: camera 1 is where it was relative to camera 0, after the rotation by the angles that were found; and camera 0 didn't move. (`hr`, `hc`: rotation vectors with the full precision: see C46) -/
theorem correct_pose (c0 : Camera) (T01 : Rt) (hT : IsRot T01.R) (p0 : P3) (hp : cross p0 T01.t ≠ ⟨0, 0, 0⟩) (err : ℝ × ℝ → ℝ) (minimize : (ℝ × ℝ → ℝ) → ℝ × ℝ → ℝ × ℝ) (step : ℝ) (x0 : ℝ × ℝ)
    (hs : start err step = some x0)
    (hr : Stereo.Representable (Pose.mul (transpose T01.R) (perturbR (correction p0 T01 (minimize err x0)))))
    (hc : ComposeExact (perturbed T01 (correction p0 T01 (minimize err x0))) c0.rt) :
    ∃ rt, correct c0 T01 p0 err minimize step true = .written rt ∧ ∀ x : P3, transformPointRt (Rt_from_rt rt) x false =
      transformPointRt T01 (turned (correction p0 T01 (minimize err x0)) (transformPointRt c0.camRef x false)) true := by
  obtain ⟨hn, hb, -⟩ := axes_unit p0 T01 hp
  unfold correct
  rw [if_pos rfl, hs]
  refine ⟨_, rfl, fun x => ?_⟩
  show transformPointRt (Rt_from_rt (composert (perturbed T01 (correction p0 T01 (minimize err x0))) c0.rt false false).rt) x false = _
  rw [hc.eq, compose_transform, perturbed_meaning T01 hT (correction p0 T01 (minimize err x0)) hn hb hr]
  ext <;> simp [subP, correction, Camera.camRef]

/-! ### the coordinates of the plot -/

/-- **C121**: the plot of the uncertainty: its axes are a rotation; the first one is along the baseline, and the point is in the plane of the first two, in front -/
theorem plot_axes (T01 : Rt) (p : P3) (h : cross p T01.t ≠ ⟨0, 0, 0⟩) : IsRot (epipolarR T01 p) ∧ mulVec (epipolarR T01 p) T01.t = ⟨mag T01.t, 0, 0⟩ ∧
    (mulVec (epipolarR T01 p) p).z = 0 ∧ 0 < (mulVec (epipolarR T01 p) p).y := by
  have ht : T01.t ≠ ⟨0, 0, 0⟩ := by
    intro e
    apply h
    rw [e]; ext <;> simp [cross]
  have hx1 := unit_inner ht
  have hm : 0 < mag T01.t := Real.sqrt_pos.2 (inner_pos ht)
  have htx : T01.t = scale (mag T01.t) (scale (1 / mag T01.t) T01.t) := by
    unfold scale; ext <;> simp only <;> field_simp
  unfold epipolarR
  dsimp only
  generalize hX : scale (1 / mag T01.t) T01.t = X at *
  have hw : subP p (scale (inner X p) X) ≠ ⟨0, 0, 0⟩ := by
    intro e
    apply h
    have e1 : p = scale (inner X p) X := by
      have a := congrArg P3.x e
      have b := congrArg P3.y e
      have c := congrArg P3.z e
      simp only [subP] at a b c
      ext <;> linarith
    rw [e1, htx]
    ext <;> simp only [cross, scale] <;> ring
  have hy1 := unit_inner hw
  have hym : 0 < mag (subP p (scale (inner X p) X)) := Real.sqrt_pos.2 (inner_pos hw)
  have hpy : p = addP (scale (inner X p) X) (scale (mag (subP p (scale (inner X p) X))) (scale (1 / mag (subP p (scale (inner X p) X))) (subP p (scale (inner X p) X)))) := by
    unfold scale addP subP
    unfold scale subP at hym
    ext <;> simp only <;> field_simp <;> ring
  have hxw : inner X (subP p (scale (inner X p) X)) = 0 := by
    have : inner X (subP p (scale (inner X p) X)) = inner X p * (1 - inner X X) := by simp only [inner, subP, scale]; ring
    rw [this, hx1]; ring
  have hxy : inner X (scale (1 / mag (subP p (scale (inner X p) X))) (subP p (scale (inner X p) X))) = 0 := by
    have : ∀ (k : ℝ) (v : P3), inner X (scale k v) = k * inner X v := fun k v => by simp only [inner, scale]; ring
    rw [this, hxw, mul_zero]
  generalize hY : scale (1 / mag (subP p (scale (inner X p) X))) (subP p (scale (inner X p) X)) = Y at *
  generalize hK : mag (subP p (scale (inner X p) X)) = K at *
  generalize hJ : inner X p = J at *
  generalize hM : mag T01.t = N at *
  rw [htx, hpy]
  unfold inner at hx1 hy1 hxy
  have lag : (X.y * Y.z - X.z * Y.y) * (X.y * Y.z - X.z * Y.y) + (X.z * Y.x - X.x * Y.z) * (X.z * Y.x - X.x * Y.z) + (X.x * Y.y - X.y * Y.x) * (X.x * Y.y - X.y * Y.x) = 1 := by
    have : (X.y * Y.z - X.z * Y.y) * (X.y * Y.z - X.z * Y.y) + (X.z * Y.x - X.x * Y.z) * (X.z * Y.x - X.x * Y.z) + (X.x * Y.y - X.y * Y.x) * (X.x * Y.y - X.y * Y.x) =
        (X.x * X.x + X.y * X.y + X.z * X.z) * (Y.x * Y.x + Y.y * Y.y + Y.z * Y.z) - (X.x * Y.x + X.y * Y.y + X.z * Y.z) ^ 2 := by ring
    rw [this, hx1, hy1, hxy]; norm_num
  refine ⟨isRot_of_cols hx1 hy1 lag hxy ?_ ?_ ?_, ?_, ?_, ?_⟩
  · simp only [cross]; ring
  · simp only [cross]; ring
  · simp only [cross]; linear_combination lag
  · ext
    · simp only [mulVec, scale]; linear_combination N * hx1
    · simp only [mulVec, scale]; linear_combination N * hxy
    · simp only [mulVec, scale, cross]; ring
  · simp only [mulVec, addP, scale, cross]; ring
  · have : (1 : ℝ) * (Y.x * (J * X.x + K * Y.x) + Y.y * (J * X.y + K * Y.y) + Y.z * (J * X.z + K * Y.z)) = K := by linear_combination J * hxy + K * hy1
    simp only [mulVec, addP, scale]
    linarith

end Mrcal.TriTool
