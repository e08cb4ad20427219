import Verif.Props.TriangulateToolPose
/-
C121: concrete cameras for the theorems about mrcal-triangulate; what's reported with --plane-n is false
-/
namespace Mrcal.TriTool

open Mrcal Mrcal.Pose
open Mrcal.MatchFeature (applyHomography)
open Mrcal.TriPy (inverse3)

/-- a pinhole camera with f = 100, that isn't rotated; the reference is `x` to its right -/
noncomputable def cam (x : ℝ) : Camera where
  project p := ⟨⟨100 * (p.x / p.z) + 0, 100 * (p.y / p.z) + 0⟩, ⟨100 / p.z, 0, -(100 * p.x / p.z ^ 2)⟩, ⟨0, 100 / p.z, -(100 * p.y / p.z ^ 2)⟩⟩
  unproject q := ⟨q.x / 100, q.y / 100, 1⟩
  rt := ⟨⟨0, 0, 0⟩, ⟨x, 0, 0⟩⟩

theorem cam_pinhole (x : ℝ) : Pinhole (cam x) 100 100 0 0 := fun _ => ⟨rfl, rfl, rfl⟩

theorem R_zero : R_from_r ⟨0, 0, 0⟩ = identityR := (R_from_r_meaning ⟨0, 0, 0⟩).2 (by simp [mag3]; unfold dblEpsilon; positivity)

theorem camRef_eq (x : ℝ) : (cam x).camRef = ⟨identityR, ⟨x, 0, 0⟩⟩ := by
  unfold Camera.camRef Rt_from_rt cam
  simp only [R_zero]

theorem relative_eq (x : ℝ) : relative (cam 0) (cam x) = ⟨identityR, ⟨x, 0, 0⟩⟩ := by
  unfold relative Camera.refCam
  rw [camRef_eq, camRef_eq]
  unfold composeRt invertRt
  ext <;> simp [identityR, transpose, Pose.mul, vecMul, rotatePointR, mulVec, addP]

theorem relative_point (x : ℝ) (p : P3) : transformPointRt (relative (cam 0) (cam x)) p false = ⟨p.x + x, p.y, p.z⟩ := by
  rw [relative_eq]
  ext <;> simp [transformPointRt, identityR, rotatePointR, mulVec, addP]

theorem Rt01_eq (x : ℝ) : Rt01 (cam 0) (cam x) = ⟨identityR, ⟨-x, 0, 0⟩⟩ := by
  unfold Rt01 Camera.refCam
  rw [camRef_eq, camRef_eq]
  unfold composeRt invertRt
  ext <;> simp [identityR, transpose, Pose.mul, vecMul, rotatePointR, mulVec, addP]

theorem mag_z (k : ℝ) (hk : 0 ≤ k) : mag ⟨0, 0, k⟩ = k := by
  unfold mag inner
  simp only [mul_zero, zero_add]
  exact Real.sqrt_mul_self hk

theorem ray_center : unitRay (cam 0) ⟨0, 0⟩ = ⟨0, 0, 1⟩ := by
  unfold unitRay cam
  simp only [zero_div]
  rw [mag_z 1 (by norm_num)]
  ext <;> simp [scale]

theorem forward_eq (x : ℝ) : meanForward (cam 0) (cam x) = ⟨0, 0, 1⟩ := by
  unfold meanForward
  rw [Rt01_eq]
  have : addP ⟨0, 0, 1⟩ (mulVec identityR ⟨0, 0, 1⟩) = ⟨0, 0, 2⟩ := by ext <;> simp [addP, mulVec, identityR]; norm_num
  simp only [this]
  rw [mag_z 2 (by norm_num)]
  ext <;> simp [scale]

theorem H_some (x d : ℝ) (hd : d ≠ 0) : ∃ H, computeH10 (cam 0) (cam x) ⟨0, 0⟩ ⟨0, 0, 1⟩ ⟨0, 0, 1⟩ d = some H := by
  have e : scale (d / inner ⟨0, 0, 1⟩ ⟨0, 0, 1⟩) ⟨0, 0, 1⟩ = (⟨0, 0, d⟩ : P3) := by ext <;> simp [scale, inner]
  unfold computeH10
  simp only [e]
  rw [pinhole_K (cam_pinhole 0) ⟨0, 0, d⟩ hd ⟨0, 0⟩ (by ext <;> simp [cam])]
  unfold inverse3
  simp only
  rw [if_neg (by norm_num)]
  exact ⟨_, rfl⟩

/-- the pixel for a plane at the distance `d` -/
theorem H_pixel (x d : ℝ) (hd : 0 < d) : ∃ H, computeH10 (cam 0) (cam x) ⟨0, 0⟩ ⟨0, 0, 1⟩ ⟨0, 0, 1⟩ d = some H ∧ applyHomography H ⟨0, 0⟩ = some ⟨100 * (x / d), 0⟩ := by
  obtain ⟨H, hH⟩ := H_some x d hd.ne'
  refine ⟨H, hH, ?_⟩
  have := homography_feature (cam 0) (cam x) ⟨0, 0⟩ ⟨0, 0, 1⟩ ⟨0, 0, 1⟩ d H hH (by simp [inner]) hd.ne' d (by simp [inner, scale]) (by simp [scale]; exact hd.ne') (by rw [relative_point]; simp [scale]; exact hd.ne')
  rw [this, relative_point]
  have hd' := hd.ne'
  simp only [scale, cam, Option.some.injEq]
  ext <;> simp <;> field_simp

/-- non-trivial case of `homography_feature`, `homography_plane`: the baseline is 1m, the plane is 10m in front: the pixel moves by 10; and so does that of any other point of the plane -/
example : ∃ H, computeH10 (cam 0) (cam (-1)) ⟨0, 0⟩ ⟨0, 0, 1⟩ ⟨0, 0, 1⟩ 10 = some H ∧ applyHomography H ⟨0, 0⟩ = some ⟨-10, 0⟩ ∧ applyHomography H ⟨30, 20⟩ = some ⟨20, 20⟩ := by
  obtain ⟨H, hH, h⟩ := H_pixel (-1) 10 (by norm_num)
  refine ⟨H, hH, by rw [h]; norm_num, ?_⟩
  have := homography_plane (cam 0) (cam (-1)) 100 100 0 0 100 100 0 0 (cam_pinhole 0) (cam_pinhole (-1)) ⟨0, 0⟩ ⟨0, 0, 1⟩ ⟨0, 0, 1⟩ 10 H hH (by simp [inner]) (by norm_num) (by simp [cam]) (by norm_num)
    (by rw [relative_point]; simp [scale, inner]) ⟨3, 2, 10⟩ (by simp [inner]) (by norm_num) (by rw [relative_point]; norm_num)
  rw [relative_point] at this
  norm_num [cam] at this
  exact this

theorem perfect_none (x r : ℝ) (hr : 0 < r) : q1Perfect (cam 0) (cam x) ⟨0, 0⟩ r none = some ⟨100 * (x / r), 0⟩ := by
  obtain ⟨H, hH, h⟩ := H_pixel x r hr
  unfold q1Perfect theH10
  simp only
  rw [ray_center, forward_eq]
  have : inner ⟨0, 0, 1⟩ (scale r ⟨0, 0, 1⟩) = r := by simp [inner, scale]
  rw [this, hH]
  exact h

/-- non-trivial case of `perfect_range` -/
example : q1Perfect (cam 0) (cam (-1)) ⟨0, 0⟩ 50 none = some ⟨-2, 0⟩ ∧ inner (unitRay (cam 0) ⟨0, 0⟩) (meanForward (cam 0) (cam (-1))) ≠ 0 ∧ (⟨0, 0, 50⟩ : P3) = scale 50 ((cam 0).unproject ⟨0, 0⟩) ∧ mag ⟨0, 0, 50⟩ = 50 := by
  refine ⟨?_, ?_, ?_, mag_z 50 (by norm_num)⟩
  · rw [perfect_none _ _ (by norm_num)]; norm_num
  · rw [ray_center, forward_eq]; simp [inner]
  · ext <;> simp [scale, cam]

/-- **C121, false**: "what's reported to be the feature at the distance --range-estimate is at this distance": with --plane-n --plane-d it's the feature on the plane. Here: the plane is 10m in front, the estimate is 50m, and the pixel at 50m is another
one -/
theorem perfect_plane_wrong : q1Perfect (cam 0) (cam (-1)) ⟨0, 0⟩ 50 (some (⟨0, 0, 1⟩, 10)) = some ⟨-10, 0⟩ ∧
    (cam (-1)).project (transformPointRt (relative (cam 0) (cam (-1))) ⟨0, 0, 50⟩ false) = ⟨⟨-2, 0⟩, ⟨2, 0, 1 / 25⟩, ⟨0, 2, 0⟩⟩ := by
  constructor
  · obtain ⟨H, hH, h⟩ := H_pixel (-1) 10 (by norm_num)
    unfold q1Perfect theH10
    simp only
    rw [ray_center, hH]
    show applyHomography H ⟨0, 0⟩ = _
    rw [h]; norm_num
  · rw [relative_point]
    norm_num [cam]

/-- non-trivial case of `axis_angle`: a yaw of 90deg: x goes to -z -/
example : mulVec (axisAngle ⟨0, 1, 0⟩ (Real.pi / 2)) ⟨1, 0, 0⟩ = ⟨0, 0, -1⟩ := by
  rw [(axis_angle ⟨0, 1, 0⟩ (by simp [inner]) _).2.2 _ (by simp [inner]), Real.cos_pi_div_two, Real.sin_pi_div_two]
  ext <;> simp [addP, scale, cross]

/-- a yaw of 90deg, and a shift -/
noncomputable def quarter : Perturb := ⟨⟨0, 0, 0.5⟩, Real.pi / 2, ⟨0, 1, 0⟩, 0, ⟨1, 0, 0⟩⟩

theorem quarter_rep : Stereo.Representable (Pose.mul (transpose identityR) (perturbR quarter)) := by
  left
  have hpi : Real.pi / 2 ≠ 0 := by positivity
  have e : perturbR quarter = axisAngle ⟨0, 1, 0⟩ (Real.pi / 2) := by
    unfold perturbR quarter
    simp only
    rw [if_neg hpi]
    simp
  rw [e]
  unfold axisAngle
  rw [Real.cos_pi_div_two, Real.sin_pi_div_two]
  simp [Pose.mul, vecMul, transpose, identityR, skew, rEps]
  norm_num

theorem quarter_turned : turned quarter ⟨10, 0, 0⟩ = ⟨0, 0, -10⟩ := by
  unfold turned quarter
  simp only [axis_zero, mulVec_identity]
  rw [(axis_angle ⟨0, 1, 0⟩ (by simp [inner]) _).2.2 _ (by simp [inner]), Real.cos_pi_div_two, Real.sin_pi_div_two]
  ext <;> simp [addP, scale, cross]

/-- non-trivial case of `perturbed_meaning`: the point that's 10m to the right of camera 0 ends up behind camera 1 -/
example : transformPointRt (Rt_from_rt (perturbed ⟨identityR, ⟨-1, 0, 0⟩⟩ quarter)) ⟨10, 0, 0⟩ false = ⟨1, 0, -10.5⟩ := by
  have h := perturbed_meaning ⟨identityR, ⟨-1, 0, 0⟩⟩ identity_rot quarter (by unfold quarter; simp [inner]) (by unfold quarter; simp [inner]) quarter_rep ⟨10, 0, 0⟩
  rw [h, quarter_turned]
  have ht : quarter.t = ⟨0, 0, 0.5⟩ := rfl
  rw [ht]
  ext <;> simp [transformPointRt, subP, rotatePointR, vecMul, mulVec, transpose, identityR]
  norm_num

/-- non-trivial case of `perturbed_zero` -/
example : Stereo.Representable (transpose identityR) := Or.inr (by rfl)

/-- non-trivial case of `worst_largest`: the second sample makes the largest difference -/
example : worst (fun x : Nat => if x = 0 then (10 : ℝ) else if x = 1 then 7 else 11) 10 [0, 1, 2] (0, none) = some (3, some 1) := by
  have h3 : (3 : ℝ) = |7 - 10| := by norm_num
  simp only [worst]
  norm_num

/-- non-trivial case of `start_spec`: the rays diverge, unless the pitch is -2 or less -/
example : ∃ x, start (fun x => if x.2 ≤ -2 then 0 else 1e6) 1 = some x ∧ x.2 ≤ -2 := by
  cases h : start (fun x => if x.2 ≤ -2 then 0 else 1e6) 1 with
  | none =>
    exfalso
    have := (start_spec _ _).2.1 h (0, -((2 : ℕ) * 1)) ⟨2, by norm_num, by simp⟩
    simp at this
    norm_num at this
  | some x =>
    refine ⟨x, rfl, ?_⟩
    have := ((start_spec _ _).1 x h).1
    by_contra hc
    simp only [if_neg hc] at this
    norm_num at this

/-- non-trivial case of `correct_wrong`, `far_wrong`: a point 1.5km away, that should be 100m away, whatever the angles: the rays converge, but the correction fails -/
example : correct (cam 0) ⟨identityR, ⟨-1, 0, 0⟩⟩ ⟨0, 0, 1500⟩ (rangeErr (cam 0) ⟨0, 0⟩ 100 fun _ => ⟨0, 0, 1500⟩) (fun _ x => x) 1 true = .nameError := by
  refine correct_wrong _ _ _ _ _ _ fun x _ => far_wrong _ _ _ _ _ ?_
  rw [mag_z _ (by norm_num)]
  norm_num

/-- non-trivial case of `correct_pose`: the cameras are right already: nothing changes -/
example : ∃ rt, correct (cam 0) ⟨identityR, ⟨-1, 0, 0⟩⟩ ⟨0, 0, 100⟩ (rangeErr (cam 0) ⟨0, 0⟩ 100 fun _ => ⟨0, 0, 100⟩) (fun _ x => x) 1 true = .written rt ∧
    ∀ x : P3, transformPointRt (Rt_from_rt rt) x false = ⟨x.x + 1, x.y, x.z⟩ := by
  have hs : start (rangeErr (cam 0) ⟨0, 0⟩ 100 fun _ => ⟨0, 0, 100⟩) 1 = some (0, 0) := by
    unfold start
    rw [if_pos]
    unfold rangeErr
    simp only
    rw [mag_z _ (by norm_num), if_neg (by norm_num)]
    norm_num [cam]
  have hR : perturbR (correction ⟨0, 0, 100⟩ ⟨identityR, ⟨-1, 0, 0⟩⟩ (0, 0)) = identityR := by unfold perturbR correction; simp
  have hm : Pose.mul (transpose identityR) identityR = identityR := by ext <;> simp [Pose.mul, vecMul, transpose, identityR]
  have hpr : (perturbed ⟨identityR, ⟨-1, 0, 0⟩⟩ (correction ⟨0, 0, 100⟩ ⟨identityR, ⟨-1, 0, 0⟩⟩ (0, 0))).r = ⟨0, 0, 0⟩ := by
    unfold perturbed
    rw [hR]
    simp only [composeRt, invertRt, rt_from_Rt]
    simp [hm]
    simp [r_from_R, identityR, rEps]
  obtain ⟨rt, h1, h2⟩ := correct_pose (cam 0) ⟨identityR, ⟨-1, 0, 0⟩⟩ identity_rot ⟨0, 0, 100⟩ (by simp [cross]) _ (fun _ x => x) 1 (0, 0) hs
    (by rw [hR, hm]; exact Or.inr rfl) (Or.inr (Or.inl ⟨rfl, Or.inr hpr⟩))
  refine ⟨rt, h1, fun x => ?_⟩
  rw [h2, camRef_eq]
  unfold turned correction
  simp only [axis_zero, mulVec_identity]
  ext <;> simp [transformPointRt, addP, subP, rotatePointR, mulVec, vecMul, transpose, identityR]

/-- non-trivial case of `plot_axes`, `axes_unit` -/
example : cross ⟨3, 0, 100⟩ ⟨-1, 0, 0⟩ ≠ (⟨0, 0, 0⟩ : P3) := by simp [cross]

end Mrcal.TriTool
