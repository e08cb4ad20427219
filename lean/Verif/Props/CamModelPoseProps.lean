import Verif.Props.PoseRtProps
import Verif.Props.RodriguesInvProps
import Verif.Model.CameraModel
/-
C83: the 4 ways to set the pose of a camera, and the 4 ways to get it.
-/
namespace Mrcal.CamModel
open Mrcal.Pose

/-! ### specification -/

/-- **Specification**: the point `p` of the reference coordinate system is `q` in the coordinate system of the camera -/
def Describes : Extr → P3 → P3 → Prop
  | .Rt_cam_ref T, p, q => toVec q = (toMat T.R).mulVec (toVec p) + toVec T.t
  | .rt_cam_ref T, p, q => toVec q = (rod T.r).mulVec (toVec p) + toVec T.t
  | .Rt_ref_cam T, p, q => toVec p = (toMat T.R).mulVec (toVec q) + toVec T.t
  | .rt_ref_cam T, p, q => toVec p = (rod T.r).mulVec (toVec q) + toVec T.t

/-- **Specification**: a valid pose. Excluded are rotations by an angle that isn't 0, but is smaller than 1e-5 rad or this close to 180deg, if given as a matrix: the implementation switches to
approximations there -/
def ValidPose : Extr → Prop
  | .Rt_cam_ref T | .Rt_ref_cam T => IsRot T.R ∧ (transpose T.R = T.R ∨ (1e-5 : ℝ) ^ 2 ≤ 1 - ((T.R.a00 + T.R.a11 + T.R.a22 - 1) / 2) ^ 2)
  | .rt_cam_ref T | .rt_ref_cam T => T.r = ⟨0, 0, 0⟩ ∨ 1e-5 ≤ mag3 T.r

/-! ### lemmas -/

/-- a rotation vector that isn't in the range of the approximations -/
def Big (r : P3) : Prop := 1e-5 ≤ mag3 r ∨ r = ⟨0, 0, 0⟩

theorem big_rod {r : P3} (h : Big r) : toMat (R_from_r r) = rod r := by
  apply (R_from_r_meaning r).1
  rcases h with h | h
  · right
    refine le_trans ?_ h
    unfold dblEpsilon; norm_num
  · exact Or.inl h

theorem R_from_r_zero : R_from_r ⟨0, 0, 0⟩ = identityR := by
  unfold R_from_r
  have e : norm2 ⟨0, 0, 0⟩ = 0 := by simp [norm2]
  simp only [e, eps_pos, if_true]

theorem mag3_eq_zero {r : P3} (h : mag3 r = 0) : r = ⟨0, 0, 0⟩ := by
  have e := mag3_sq r
  rw [h] at e
  have : r.x * r.x + r.y * r.y + r.z * r.z = 0 := by linarith
  ext
  · show r.x = 0; nlinarith [mul_self_nonneg r.x, mul_self_nonneg r.y, mul_self_nonneg r.z]
  · show r.y = 0; nlinarith [mul_self_nonneg r.x, mul_self_nonneg r.y, mul_self_nonneg r.z]
  · show r.z = 0; nlinarith [mul_self_nonneg r.x, mul_self_nonneg r.y, mul_self_nonneg r.z]

theorem from_matrix (R : M3) (h : IsRot R) (hv : transpose R = R ∨ (1e-5 : ℝ) ^ 2 ≤ 1 - ((R.a00 + R.a11 + R.a22 - 1) / 2) ^ 2) :
    R_from_r (r_from_R R) = R ∧ Big (r_from_R R) := by
  have h1 : R_from_r (r_from_R R) = R := by
    rcases hv with hv | hv
    · exact R_from_r_from_R_sym R h hv
    · refine (R_from_r_from_R R h (lt_of_lt_of_le ?_ hv)).1
      unfold rEps; norm_num
  refine ⟨h1, ?_⟩
  obtain ⟨r, hr⟩ : ∃ r, r = r_from_R R := ⟨_, rfl⟩
  rw [← hr] at h1 ⊢
  by_cases he : mag3 r < dblEpsilon
  · right
    have hi := (R_from_r_meaning r).2 he
    rw [h1] at hi
    rw [hr, hi, ← R_from_r_zero]
    exact r_from_R_from_r ⟨0, 0, 0⟩ (by simp [mag3, Real.pi_pos.le]) (Or.inr rfl)
  · left
    have de : 0 < dblEpsilon := by unfold dblEpsilon; positivity
    have he' := not_lt.mp he
    have hn : dblEpsilon * dblEpsilon ≤ norm2 r := by rw [norm2_eq]; exact mul_le_mul he' he' de.le (de.le.trans he')
    have hnom := R_from_r_nominal r hn
    have hu := axis_unit r (mag3_ne r hn)
    rw [h1] at hnom
    by_contra hc
    have hlt := not_le.mp hc
    have hpos : 0 < mag3 r := lt_of_lt_of_le de he'
    have hsin : 0 < Real.sin (mag3 r) := Real.sin_pos_of_pos_of_lt_pi hpos (by have := Real.pi_gt_three; linarith)
    have hsin' : Real.sin (mag3 r) < 1e-5 := (Real.sin_lt hpos).trans hlt
    rcases hv with hv | hv
    · rw [hnom] at hv
      have e1 : (rodM (Real.cos (mag3 r)) (Real.sin (mag3 r)) (axis r)).a10 = (rodM (Real.cos (mag3 r)) (Real.sin (mag3 r)) (axis r)).a01 := congrArg M3.a01 hv
      have e2 : (rodM (Real.cos (mag3 r)) (Real.sin (mag3 r)) (axis r)).a20 = (rodM (Real.cos (mag3 r)) (Real.sin (mag3 r)) (axis r)).a02 := congrArg M3.a02 hv
      have e3 : (rodM (Real.cos (mag3 r)) (Real.sin (mag3 r)) (axis r)).a21 = (rodM (Real.cos (mag3 r)) (Real.sin (mag3 r)) (axis r)).a12 := congrArg M3.a12 hv
      simp only [rodM] at e1 e2 e3
      have z : (axis r).z = 0 := by have : Real.sin (mag3 r) * (axis r).z = 0 := by linarith
                                    exact (mul_eq_zero.1 this).resolve_left hsin.ne'
      have y : (axis r).y = 0 := by have : Real.sin (mag3 r) * (axis r).y = 0 := by linarith
                                    exact (mul_eq_zero.1 this).resolve_left hsin.ne'
      have x : (axis r).x = 0 := by have : Real.sin (mag3 r) * (axis r).x = 0 := by linarith
                                    exact (mul_eq_zero.1 this).resolve_left hsin.ne'
      rw [x, y, z] at hu
      norm_num at hu
    · have tr : (R.a00 + R.a11 + R.a22 - 1) / 2 = Real.cos (mag3 r) := by
        rw [hnom]
        simp only [rodM]
        linear_combination (1 - Real.cos (mag3 r)) * hu / 2
      rw [tr] at hv
      have := Real.sin_sq_add_cos_sq (mag3 r)
      nlinarith

theorem transpose_rot {R : M3} (h : IsRot R) : IsRot (transpose R) := by
  have e : toMat (transpose R) = (toMat R).transpose := by
    ext i j; fin_cases i <;> fin_cases j <;> rfl
  refine ⟨?_, ?_⟩
  · unfold Orth
    rw [e, Matrix.transpose_transpose]; exact h.1.left
  · rw [e, Matrix.det_transpose]; exact h.2

/-- inverting swaps the points -/
theorem invert_describes (T : Rt) (h : Orth T.R) (p q : P3) :
    toVec q = (toMat (invertRt T).R).mulVec (toVec p) + toVec (invertRt T).t ↔ toVec p = (toMat T.R).mulVec (toVec q) + toVec T.t := by
  have i1 := (invert_transform T p h).1
  have i2 := transform_inverted T h
  have m1 := transform_meaning (invertRt T) p
  have m2 := transform_meaning T q
  unfold act at m1 m2
  rw [← m1, ← m2, i1]
  constructor
  · intro e
    have : q = transformPointRt T p true := toVec_inj e
    rw [this, (i2 p).2]
  · intro e
    have : p = transformPointRt T q false := toVec_inj e
    rw [this, (i2 q).1]

theorem orth_from_r (r : P3) : Orth (R_from_r r) := (R_from_r_rot r).1

theorem big_neg {r : P3} (h : Big r) : Big (negP r) := by
  unfold Big
  rw [mag3_neg]
  exact h.imp id (fun h => by rw [h]; simp [negP])

theorem stored_pose {K : Type} (o : Obj K RtV) (e : Extr) (hv : ValidPose e) : Big (setExtr o (some e)).rt_cam_ref.r ∧
    ∀ p q, Describes e p q ↔ Describes (.Rt_cam_ref (Rt_from_rt (setExtr o (some e)).rt_cam_ref)) p q := by
  cases e with
  | Rt_cam_ref T =>
    obtain ⟨h1, h2⟩ := from_matrix T.R hv.1 hv.2
    refine ⟨h2, fun p q => ?_⟩
    simp only [setExtr, set_Rt_cam_ref, Describes, Rt_from_rt, rt_from_Rt, h1]
  | rt_cam_ref T =>
    have hb : Big T.r := hv.symm
    refine ⟨hb, fun p q => ?_⟩
    simp only [setExtr, set_rt_cam_ref, Describes, Rt_from_rt, big_rod hb]
  | Rt_ref_cam T =>
    have hv' : transpose (transpose T.R) = transpose T.R ∨ (1e-5 : ℝ) ^ 2 ≤ 1 - (((transpose T.R).a00 + (transpose T.R).a11 + (transpose T.R).a22 - 1) / 2) ^ 2 := by
      rcases hv.2 with h | h
      · left; rw [h, h]
      · right; exact h
    obtain ⟨h1, h2⟩ := from_matrix (transpose T.R) (transpose_rot hv.1) hv'
    refine ⟨h2, fun p q => ?_⟩
    have hR : (invertRt T).R = transpose T.R := rfl
    have e : Rt_from_rt (rt_from_Rt (invertRt T)) = invertRt T := by
      unfold Rt_from_rt rt_from_Rt
      simp only [hR, h1]
      rfl
    simp only [setExtr, set_Rt_ref_cam, Describes, e]
    exact (invert_describes T hv.1.1 p q).symm
  | rt_ref_cam T =>
    have hb : Big T.r := hv.symm
    have hr : (invertrt T).1.r = negP T.r := rfl
    refine ⟨by show Big (invertrt T).1.r; rw [hr]; exact big_neg hb, fun p q => ?_⟩
    simp only [setExtr, set_rt_ref_cam, Describes]
    rw [invert_rt_Rt T hb, invert_describes (Rt_from_rt T) (orth_from_r T.r) p q]
    simp only [Rt_from_rt, big_rod hb]

/-- **C83.** Each setter and each getter of the pose agree: what the getter returns describes the same pose as what was set, for every point. The other attributes don't change -/
theorem pose_set_get {K : Type} (o : Obj K RtV) (e : Extr) (hv : ValidPose e) (p q : P3) :
    let o' := setExtr o (some e)
    (Describes (.Rt_cam_ref (Rt_cam_ref o')) p q ↔ Describes e p q) ∧ (Describes (.rt_cam_ref (rt_cam_ref o')) p q ↔ Describes e p q) ∧
    (Describes (.Rt_ref_cam (Rt_ref_cam o')) p q ↔ Describes e p q) ∧ (Describes (.rt_ref_cam (rt_ref_cam o')) p q ↔ Describes e p q) := by
  intro o'
  obtain ⟨hb, hd⟩ := stored_pose o e hv
  have hd := hd p q
  change Big o'.rt_cam_ref.r at hb
  change Describes e p q ↔ Describes (.Rt_cam_ref (Rt_from_rt o'.rt_cam_ref)) p q at hd
  have hb' : Big (invertrt o'.rt_cam_ref).1.r := big_neg hb
  have hinv : (Describes (.Rt_ref_cam (invertRt (Rt_from_rt o'.rt_cam_ref))) p q ↔ Describes (.Rt_cam_ref (Rt_from_rt o'.rt_cam_ref)) p q) :=
    invert_describes (Rt_from_rt o'.rt_cam_ref) (orth_from_r _) q p
  refine ⟨hd.symm, ?_, ?_, ?_⟩
  · rw [hd]
    simp only [rt_cam_ref, Describes, Rt_from_rt, big_rod hb]
  · rw [hd]; exact hinv
  · rw [hd, ← hinv, ← invert_rt_Rt _ hb]
    simp only [rt_ref_cam, Describes, Rt_from_rt, big_rod hb']

/-- without a pose, a camera is at the reference -/
theorem pose_default {K : Type} (o : Obj K RtV) (p q : P3) : Describes (.rt_cam_ref (rt_cam_ref (setExtr o none))) p q ↔ p = q := by
  have hb : Big (⟨0, 0, 0⟩ : P3) := Or.inr rfl
  simp only [setExtr, set_rt_cam_ref, rt_cam_ref, Describes, ← big_rod hb, R_from_r_zero, toMat_identity, Matrix.one_mulVec]
  have : toVec (⟨0, 0, 0⟩ : P3) = 0 := by ext i; fin_cases i <;> rfl
  rw [this, add_zero]
  exact ⟨fun h => (toVec_inj h).symm, fun h => by rw [h]⟩

/-- setting a pose changes nothing else -/
theorem pose_only {K : Type} (o : Obj K RtV) (e : Option Extr) : ∃ T, setExtr o e = { o with rt_cam_ref := T } := by
  cases e with
  | none => exact ⟨_, rfl⟩
  | some e => cases e <;> exact ⟨_, rfl⟩

/-- a half turn about x, given as a matrix, is valid; so is a rotation vector -/
example : ValidPose (.Rt_ref_cam ⟨⟨1, 0, 0, 0, -1, 0, 0, 0, -1⟩, ⟨1, 2, 3⟩⟩) := by
  refine ⟨⟨?_, ?_⟩, Or.inl rfl⟩
  · unfold Orth
    ext i j; fin_cases i <;> fin_cases j <;> simp [toMat, Matrix.mul_apply, Fin.sum_univ_three]
  · simp [toMat, Matrix.det_fin_three]
example : ValidPose (.Rt_cam_ref ⟨⟨0, -1, 0, 1, 0, 0, 0, 0, 1⟩, ⟨1, 2, 3⟩⟩) := by
  refine ⟨⟨?_, ?_⟩, Or.inr ?_⟩
  · unfold Orth
    ext i j; fin_cases i <;> fin_cases j <;> simp [toMat, Matrix.mul_apply, Fin.sum_univ_three]
  · simp [toMat, Matrix.det_fin_three]
  · norm_num
example : ValidPose (.rt_ref_cam ⟨⟨3, 0, 4⟩, ⟨1, 2, 3⟩⟩) := by
  right
  have : mag3 ⟨3, 0, 4⟩ = 5 := by
    unfold mag3
    rw [show (3 : ℝ) * 3 + 0 * 0 + 4 * 4 = 5 ^ 2 by norm_num]
    exact Real.sqrt_sq (by norm_num)
  show (1e-5 : ℝ) ≤ mag3 ⟨3, 0, 4⟩
  rw [this]; norm_num

end Mrcal.CamModel
