import Verif.Model.TriangulateTool
import Verif.Props.StereoRectProps
import Verif.Props.PoseRtProps
/-
C121: mrcal-triangulate: the homography, the perturbed poses, the corrected model
-/
namespace Mrcal.TriTool

open Mrcal Mrcal.Pose
open Mrcal.MatchFeature (applyHomography)
open Mrcal.TriPy (inverse3)

theorem mulVec_mul (A B : M3) (v : P3) : mulVec (Pose.mul A B) v = mulVec A (mulVec B v) := by
  ext <;> simp only [mulVec, Pose.mul, vecMul] <;> ring

theorem inverse_left {K Ki : M3} (h : inverse3 K = some Ki) (v : P3) : mulVec Ki (mulVec K v) = v := by
  unfold inverse3 at h
  simp only at h
  obtain ⟨D, hD⟩ : ∃ D, D = K.a00 * (K.a11 * K.a22 - K.a12 * K.a21) - K.a01 * (K.a10 * K.a22 - K.a12 * K.a20) + K.a02 * (K.a10 * K.a21 - K.a11 * K.a20) := ⟨_, rfl⟩
  rw [← hD] at h
  split_ifs at h with hd
  injection h with h
  subst h
  ext
  · simp only [mulVec]
    field_simp
    rw [hD]; ring
  · simp only [mulVec]
    field_simp
    rw [hD]; ring
  · simp only [mulVec]
    field_simp
    rw [hD]; ring

/-- a homography in homogeneous coordinates -/
theorem apply_of (H : M3) (q q' : P2) (s : ℝ) (hs : s ≠ 0) (h : mulVec H ⟨q.x, q.y, 1⟩ = ⟨s * q'.x, s * q'.y, s⟩) : applyHomography H q = some q' := by
  have hx := congrArg P3.x h
  have hy := congrArg P3.y h
  have hz := congrArg P3.z h
  simp only [mulVec, one_mul, mul_one] at hx hy hz
  unfold applyHomography
  simp only
  rw [hz, if_neg hs, hx, hy, mul_div_cancel_left₀ _ hs, mul_div_cancel_left₀ _ hs]

theorem homography (K0 K0i K1 : M3) (T : Rt) (n p : P3) (d : ℝ) (qa qb : P2) (hi : inverse3 K0 = some K0i) (hp : inner p n = d) (hd : d ≠ 0) (hz : p.z ≠ 0)
    (hz1 : (transformPointRt T p false).z ≠ 0) (h0 : mulVec K0 ⟨p.x / p.z, p.y / p.z, 1⟩ = ⟨qa.x, qa.y, 1⟩)
    (h1 : mulVec K1 ⟨(transformPointRt T p false).x / (transformPointRt T p false).z, (transformPointRt T p false).y / (transformPointRt T p false).z, 1⟩ = ⟨qb.x, qb.y, 1⟩) :
    applyHomography (Pose.mul K1 (Pose.mul (planeH T n d) K0i)) qa = some qb := by
  set p1 := transformPointRt T p false with hp1
  refine apply_of _ _ _ (d * p1.z / p.z) (div_ne_zero (mul_ne_zero hd hz1) hz) ?_
  rw [mulVec_mul, mulVec_mul, ← h0, inverse_left hi]
  have e : mulVec (planeH T n d) ⟨p.x / p.z, p.y / p.z, 1⟩ = scale (d * p1.z / p.z) ⟨p1.x / p1.z, p1.y / p1.z, 1⟩ := by
    have hpx : p1.x = T.R.a00 * p.x + T.R.a01 * p.y + T.R.a02 * p.z + T.t.x := by
      rw [hp1]; simp only [transformPointRt, rotatePointR, mulVec, addP, Bool.false_eq_true, if_false, Bool.not_false, if_true]; ring
    have hpy : p1.y = T.R.a10 * p.x + T.R.a11 * p.y + T.R.a12 * p.z + T.t.y := by
      rw [hp1]; simp only [transformPointRt, rotatePointR, mulVec, addP, Bool.false_eq_true, if_false, Bool.not_false, if_true]; ring
    have hpz : p1.z = T.R.a20 * p.x + T.R.a21 * p.y + T.R.a22 * p.z + T.t.z := by
      rw [hp1]; simp only [transformPointRt, rotatePointR, mulVec, addP, Bool.false_eq_true, if_false, Bool.not_false, if_true]; ring
    unfold inner at hp
    ext
    · simp only [mulVec, planeH, scale]
      have : d * p1.z / p.z * (p1.x / p1.z) = d * p1.x / p.z := by field_simp
      rw [this, hpx]
      field_simp
      linear_combination T.t.x * hp
    · simp only [mulVec, planeH, scale]
      have : d * p1.z / p.z * (p1.y / p1.z) = d * p1.y / p.z := by field_simp
      rw [this, hpy]
      field_simp
      linear_combination T.t.y * hp
    · simp only [mulVec, planeH, scale, mul_one]
      rw [hpz]
      field_simp
      linear_combination T.t.z * hp
  rw [e]
  have hs : mulVec K1 (scale (d * p1.z / p.z) ⟨p1.x / p1.z, p1.y / p1.z, 1⟩) = scale (d * p1.z / p.z) (mulVec K1 ⟨p1.x / p1.z, p1.y / p1.z, 1⟩) := by
    ext <;> simp only [mulVec, scale] <;> ring
  rw [hs, h1]
  ext <;> simp [scale]

theorem localK_point (c : Camera) (p : P3) (q : P2) : mulVec (localK c p q) ⟨p.x / p.z, p.y / p.z, 1⟩ = ⟨q.x, q.y, 1⟩ := by
  unfold localK
  ext <;> simp only [mulVec] <;> ring

theorem on_plane (v0 n : P3) (d : ℝ) (h : inner v0 n ≠ 0) : inner (scale (d / inner v0 n) v0) n = d := by
  have : inner (scale (d / inner v0 n) v0) n = d / inner v0 n * inner v0 n := by unfold scale; simp only [inner]; ring
  rw [this, div_mul_cancel₀ _ h]

/-- **C121**: the homography maps the feature to the pixel where camera 1 sees the point of the plane that camera 0 sees there. This is for any lenses; `q0`'s ray is `v0` -/
theorem homography_feature (c0 c1 : Camera) (q0 : P2) (v0 n : P3) (d : ℝ) (H : M3) (h : computeH10 c0 c1 q0 v0 n d = some H) (hv : inner v0 n ≠ 0) (hd : d ≠ 0) (k : ℝ) (hk : inner (scale k v0) n = d)
    (hz : (scale k v0).z ≠ 0) (hz1 : (transformPointRt (relative c0 c1) (scale k v0) false).z ≠ 0) :
    applyHomography H q0 = some (c1.project (scale (1 / (transformPointRt (relative c0 c1) (scale k v0) false).z) (transformPointRt (relative c0 c1) (scale k v0) false))).q := by
  have hk' : k = d / inner v0 n := by
    have : inner (scale k v0) n = k * inner v0 n := by unfold scale; simp only [inner]; ring
    rw [this] at hk
    rw [← hk, mul_div_cancel_right₀ _ hv]
  subst hk'
  unfold computeH10 at h
  simp only at h
  obtain ⟨K0i, hi, rfl⟩ := Option.map_eq_some_iff.1 h
  exact homography _ K0i _ _ n _ d q0 _ hi (on_plane v0 n d hv) hd hz hz1 (localK_point _ _ _) (localK_point _ _ _)

/-- **Specification**: a pinhole camera. `project` has its gradient too -/
def Pinhole (c : Camera) (fx fy cx cy : ℝ) : Prop :=
  ∀ p : P3, (c.project p).q = ⟨fx * (p.x / p.z) + cx, fy * (p.y / p.z) + cy⟩ ∧ (c.project p).dqx = ⟨fx / p.z, 0, -(fx * p.x / p.z ^ 2)⟩ ∧ (c.project p).dqy = ⟨0, fy / p.z, -(fy * p.y / p.z ^ 2)⟩

theorem pinhole_K {c : Camera} {fx fy cx cy : ℝ} (h : Pinhole c fx fy cx cy) (p : P3) (hz : p.z ≠ 0) (q : P2) (hq : q = (c.project p).q) : localK c p q = ⟨fx, 0, cx, 0, fy, cy, 0, 0, 1⟩ := by
  obtain ⟨-, h2, h3⟩ := h (scale (1 / p.z) p)
  obtain ⟨h1, -, -⟩ := h p
  have hz1 : (scale (1 / p.z) p).z = 1 := by unfold scale; simp only; field_simp
  unfold localK
  dsimp only
  rw [h2, h3, hz1, hq, h1]
  ext <;> simp

theorem pinhole_scale {c : Camera} {fx fy cx cy : ℝ} (h : Pinhole c fx fy cx cy) (p : P3) (hz : p.z ≠ 0) : (c.project (scale (1 / p.z) p)).q = (c.project p).q := by
  rw [(h _).1, (h _).1]
  unfold scale
  ext
  · simp only; field_simp
  · simp only; field_simp

/-- **C121**: for pinhole cameras the homography is that of the whole plane: each point of the plane that is seen at q in camera 0 is seen at H(q) in camera 1 -/
theorem homography_plane (c0 c1 : Camera) (fx0 fy0 cx0 cy0 fx1 fy1 cx1 cy1 : ℝ) (hc0 : Pinhole c0 fx0 fy0 cx0 cy0) (hc1 : Pinhole c1 fx1 fy1 cx1 cy1) (q0 : P2) (v0 n : P3) (d : ℝ) (H : M3)
    (h : computeH10 c0 c1 q0 v0 n d = some H) (hv : inner v0 n ≠ 0) (hd : d ≠ 0) (hq : (c0.project v0).q = q0) (hz0 : v0.z ≠ 0)
    (hz1 : (transformPointRt (relative c0 c1) (scale (d / inner v0 n) v0) false).z ≠ 0)
    (p : P3) (hp : inner p n = d) (hz : p.z ≠ 0) (hz' : (transformPointRt (relative c0 c1) p false).z ≠ 0) :
    applyHomography H (c0.project p).q = some (c1.project (transformPointRt (relative c0 c1) p false)).q := by
  unfold computeH10 at h
  simp only at h
  obtain ⟨K0i, hi, rfl⟩ := Option.map_eq_some_iff.1 h
  have hk : d / inner v0 n ≠ 0 := div_ne_zero hd hv
  have hpz : (scale (d / inner v0 n) v0).z ≠ 0 := mul_ne_zero hk hz0
  have hq' : q0 = (c0.project (scale (d / inner v0 n) v0)).q := by
    rw [← hq, (hc0 _).1, (hc0 _).1]
    unfold scale
    have e1 : d / inner v0 n * v0.x / (d / inner v0 n * v0.z) = v0.x / v0.z := mul_div_mul_left _ _ hk
    have e2 : d / inner v0 n * v0.y / (d / inner v0 n * v0.z) = v0.y / v0.z := mul_div_mul_left _ _ hk
    simp only [e1, e2]
  rw [pinhole_K hc0 _ hpz q0 hq'] at hi
  rw [pinhole_K hc1 _ hz1 _ (pinhole_scale hc1 _ hz1)]
  refine homography _ K0i _ _ n p d _ _ hi hp hd hz hz' ?_ ?_
  · rw [(hc0 p).1]; ext <;> simp [mulVec]
  · rw [(hc1 _).1]; ext <;> simp [mulVec]

/-- **C121**: without a plane, "the feature at the distance --range-estimate" is what's reported: the pixel where camera 1 sees the point at this distance along the ray of the feature -/
theorem perfect_range (c0 c1 : Camera) (q0 : P2) (range : ℝ) (q : P2) (h : q1Perfect c0 c1 q0 range none = some q) (hr : 0 < range)
    (hu : inner (unitRay c0 q0) (meanForward c0 c1) ≠ 0) (p : P3) (hdir : ∃ k, 0 < k ∧ p = scale k (c0.unproject q0)) (hrange : mag p = range) (hz : p.z ≠ 0)
    (hz1 : (transformPointRt (relative c0 c1) p false).z ≠ 0) :
    q = (c1.project (scale (1 / (transformPointRt (relative c0 c1) p false).z) (transformPointRt (relative c0 c1) p false))).q := by
  obtain ⟨k, hk, rfl⟩ := hdir
  have hm : mag (scale k (c0.unproject q0)) = k * mag (c0.unproject q0) := by
    unfold mag
    have : inner (scale k (c0.unproject q0)) (scale k (c0.unproject q0)) = k ^ 2 * inner (c0.unproject q0) (c0.unproject q0) := by simp only [inner, scale]; ring
    rw [this, Real.sqrt_mul (by positivity), Real.sqrt_sq hk.le]
  have hmne : mag (c0.unproject q0) ≠ 0 := by
    intro e
    rw [hm, e, mul_zero] at hrange
    exact hr.ne hrange
  have hp : scale k (c0.unproject q0) = scale range (unitRay c0 q0) := by
    rw [← hrange, hm]
    unfold unitRay scale
    ext <;> simp only <;> field_simp
  rw [hp] at hz hz1 ⊢
  unfold q1Perfect theH10 at h
  simp only at h
  obtain ⟨H, hH, ha⟩ := Option.bind_eq_some_iff.1 h
  have hsym : ∀ a b, inner a b = inner b a := fun a b => by unfold inner; ring
  have hd : inner (meanForward c0 c1) (scale range (unitRay c0 q0)) = range * inner (unitRay c0 q0) (meanForward c0 c1) := by unfold scale inner; ring
  have := homography_feature c0 c1 q0 _ _ _ H hH hu (by rw [hd]; exact mul_ne_zero hr.ne' hu) range (hsym _ _) hz hz1
  rw [ha] at this
  exact Option.some.inj this

end Mrcal.TriTool
