import Verif.Props.StereoRangeProps
import Verif.Props.RodriguesInvProps
/-
C37: the geometry of the rectified system
-/
namespace Mrcal.Stereo
open Mrcal.Cam Mrcal.Pose

/-- **Specification**: the mean of the two optical axes in camera0 coordinates (twice), without its component along the baseline -/
noncomputable def perpForward (T : Rt) : P3 :=
  let f : P3 := ⟨T.R.a02, T.R.a12, T.R.a22 + 1⟩
  let s := (f.x * T.t.x + f.y * T.t.y + f.z * T.t.z) / (mag3 T.t * mag3 T.t)
  ⟨f.x - s * T.t.x, f.y - s * T.t.y, f.z - s * T.t.z⟩

/-- the elements of the matrix of axes -/
theorem axes_core (b s : ℝ) (t f : P3) (hb : 0 < b) (hbb : b * b = t.x * t.x + t.y * t.y + t.z * t.z) (hs : 0 < s)
    (hss : s * s = f.x * f.x + f.y * f.y + f.z * f.z) (ht : f.x * t.x + f.y * t.y + f.z * t.z = 0) (R : M3)
    (hR : R = ⟨t.x / b, t.y / b, t.z / b, f.y / s * (t.z / b) - f.z / s * (t.y / b), f.z / s * (t.x / b) - f.x / s * (t.z / b),
      f.x / s * (t.y / b) - f.y / s * (t.x / b), f.x / s, f.y / s, f.z / s⟩) : IsRot R ∧ mulVec R t = ⟨b, 0, 0⟩ := by
  have nb := hb.ne'
  have ns := hs.ne'
  set a0 := t.x / b with e0
  set a1 := t.y / b with e1
  set a2 := t.z / b with e2
  set c0 := f.x / s with g0
  set c1 := f.y / s with g1
  set c2 := f.z / s with g2
  have ha : a0 * a0 + a1 * a1 + a2 * a2 = 1 := by rw [e0, e1, e2]; field_simp; linear_combination -hbb
  have hc : c0 * c0 + c1 * c1 + c2 * c2 = 1 := by rw [g0, g1, g2]; field_simp; linear_combination -hss
  have hac : a0 * c0 + a1 * c1 + a2 * c2 = 0 := by rw [e0, e1, e2, g0, g1, g2]; field_simp; linear_combination ht
  have tx : t.x = b * a0 := by rw [e0]; field_simp
  have ty : t.y = b * a1 := by rw [e1]; field_simp
  have tz : t.z = b * a2 := by rw [e2]; field_simp
  clear_value a0 a1 a2 c0 c1 c2
  subst hR
  refine ⟨⟨?_, ?_⟩, ?_⟩
  · unfold Orth
    ext i j
    fin_cases i <;> fin_cases j <;> simp [toMat, Matrix.mul_apply, Fin.sum_univ_three]
    · exact ha
    · ring
    · exact hac
    · ring
    · linear_combination (a0 * a0 + a1 * a1 + a2 * a2) * hc + ha - (a0 * c0 + a1 * c1 + a2 * c2) * hac
    · ring
    · linear_combination hac
    · ring
    · exact hc
  · simp only [toMat, Matrix.det_fin_three, Matrix.of_apply, Matrix.cons_val', Matrix.cons_val_zero, Matrix.cons_val_one, Matrix.cons_val,
      Matrix.empty_val', Matrix.cons_val_fin_one]
    linear_combination (a0 * a0 + a1 * a1 + a2 * a2) * hc + ha - (a0 * c0 + a1 * c1 + a2 * c2) * hac
  · rw [mulVec, tx, ty, tz]
    ext
    · simp only []; linear_combination b * ha
    · simp only []; ring
    · simp only []; linear_combination b * hac

/-- **C37**: the rectified axes are a rotation (no mirroring) that puts the second camera on the +x axis at the baseline distance. z is the direction that the cameras
look in, perpendicular to the baseline. The axes are not finite exactly if the cameras look along the baseline. It fails for a baseline under 1e-6 -/
theorem rect_axes (T : Rt) :
    (rectAxes T = none ↔ mag3 T.t < 1e-6) ∧
    ∀ A, rectAxes T = some A → A.baseline = mag3 T.t ∧ 0 < A.baseline ∧ A.forward01 = ⟨T.R.a02, T.R.a12, T.R.a22 + 1⟩ ∧
      A.proj * A.baseline = T.R.a02 * T.t.x + T.R.a12 * T.t.y + (T.R.a22 + 1) * T.t.z ∧
      (A.R_rect0_cam0 = none ↔ perpForward T = ⟨0, 0, 0⟩) ∧
      ∀ R, A.R_rect0_cam0 = some R → IsRot R ∧ mulVec R T.t = ⟨A.baseline, 0, 0⟩ ∧
        ∃ s, 0 < s ∧ perpForward T = ⟨s * R.a20, s * R.a21, s * R.a22⟩ := by
  have hm : Real.sqrt (T.t.x * T.t.x + T.t.y * T.t.y + T.t.z * T.t.z) = mag3 T.t := rfl
  unfold rectAxes
  simp only [hm]
  by_cases h : mag3 T.t < 1e-6
  · simp only [if_pos h, h]
    exact ⟨by simp, fun A hA => by cases hA⟩
  rw [if_neg h]
  refine ⟨by simp [h], fun A hA => ?_⟩
  have hb : 0 < mag3 T.t := by
    have : (0 : ℝ) < 1e-6 := by norm_num
    linarith [not_lt.mp h]
  have nb := hb.ne'
  have hbb := mag3_sq T.t
  have key : ∀ u v : ℝ, T.R.a02 * (T.t.x / mag3 T.t) + T.R.a12 * (T.t.y / mag3 T.t) + (T.R.a22 + 1) * (T.t.z / mag3 T.t)
      = (T.R.a02 * T.t.x + T.R.a12 * T.t.y + (T.R.a22 + 1) * T.t.z) / mag3 T.t := by intro u v; ring
  have hf : perpForward T = ⟨T.R.a02 - (T.R.a02 * (T.t.x / mag3 T.t) + T.R.a12 * (T.t.y / mag3 T.t) + (T.R.a22 + 1) * (T.t.z / mag3 T.t)) * (T.t.x / mag3 T.t),
      T.R.a12 - (T.R.a02 * (T.t.x / mag3 T.t) + T.R.a12 * (T.t.y / mag3 T.t) + (T.R.a22 + 1) * (T.t.z / mag3 T.t)) * (T.t.y / mag3 T.t),
      T.R.a22 + 1 - (T.R.a02 * (T.t.x / mag3 T.t) + T.R.a12 * (T.t.y / mag3 T.t) + (T.R.a22 + 1) * (T.t.z / mag3 T.t)) * (T.t.z / mag3 T.t)⟩ := by
    unfold perpForward
    ext <;> simp only [] <;> field_simp
  have fx : (perpForward T).x = T.R.a02 - (T.R.a02 * (T.t.x / mag3 T.t) + T.R.a12 * (T.t.y / mag3 T.t) + (T.R.a22 + 1) * (T.t.z / mag3 T.t)) * (T.t.x / mag3 T.t) := congrArg P3.x hf
  have fy : (perpForward T).y = T.R.a12 - (T.R.a02 * (T.t.x / mag3 T.t) + T.R.a12 * (T.t.y / mag3 T.t) + (T.R.a22 + 1) * (T.t.z / mag3 T.t)) * (T.t.y / mag3 T.t) := congrArg P3.y hf
  have fz : (perpForward T).z = T.R.a22 + 1 - (T.R.a02 * (T.t.x / mag3 T.t) + T.R.a12 * (T.t.y / mag3 T.t) + (T.R.a22 + 1) * (T.t.z / mag3 T.t)) * (T.t.z / mag3 T.t) := congrArg P3.z hf
  have hperp : (perpForward T).x * T.t.x + (perpForward T).y * T.t.y + (perpForward T).z * T.t.z = 0 := by
    unfold perpForward
    simp only []
    field_simp
    rw [sq (mag3 T.t), hbb]
    ring
  rw [← Option.some.inj hA]
  refine ⟨rfl, hb, rfl, ?_, ?_, ?_⟩
  · simp only []; field_simp
  · simp only []
    rw [← fx, ← fy, ← fz]
    by_cases h0 : (perpForward T).x * (perpForward T).x + (perpForward T).y * (perpForward T).y + (perpForward T).z * (perpForward T).z = 0
    · rw [if_pos h0]
      have hx : (perpForward T).x = 0 := by nlinarith [mul_self_nonneg (perpForward T).x, mul_self_nonneg (perpForward T).y, mul_self_nonneg (perpForward T).z]
      have hy : (perpForward T).y = 0 := by nlinarith [mul_self_nonneg (perpForward T).x, mul_self_nonneg (perpForward T).y, mul_self_nonneg (perpForward T).z]
      have hz : (perpForward T).z = 0 := by nlinarith [mul_self_nonneg (perpForward T).x, mul_self_nonneg (perpForward T).y, mul_self_nonneg (perpForward T).z]
      simp only [true_iff]
      exact P3.ext hx hy hz
    · rw [if_neg h0]
      simp only [reduceCtorEq, false_iff]
      intro hc
      rw [hc] at h0
      simp at h0
  · intro R hR
    simp only [] at hR
    rw [← fx, ← fy, ← fz] at hR
    by_cases h0 : (perpForward T).x * (perpForward T).x + (perpForward T).y * (perpForward T).y + (perpForward T).z * (perpForward T).z = 0
    · rw [if_pos h0] at hR; cases hR
    rw [if_neg h0] at hR
    have hpos : 0 < (perpForward T).x * (perpForward T).x + (perpForward T).y * (perpForward T).y + (perpForward T).z * (perpForward T).z :=
      lt_of_le_of_ne (by nlinarith [mul_self_nonneg (perpForward T).x, mul_self_nonneg (perpForward T).y, mul_self_nonneg (perpForward T).z]) (Ne.symm h0)
    have hs := Real.sqrt_pos.mpr hpos
    have hss := Real.mul_self_sqrt hpos.le
    have hR' := (Option.some.inj hR).symm
    obtain ⟨r1, r2⟩ := axes_core (mag3 T.t) _ T.t (perpForward T) hb hbb hs hss hperp R hR'
    refine ⟨r1, r2, _, hs, ?_⟩
    rw [hR']
    have ns := hs.ne'
    generalize Real.sqrt ((perpForward T).x * (perpForward T).x + (perpForward T).y * (perpForward T).y + (perpForward T).z * (perpForward T).z) = s at ns ⊢
    ext <;> simp only [] <;> field_simp

/-- two parallel cameras looking straight ahead, one to the right of the other: nothing to rotate -/
example : ∃ A, rectAxes ⟨identityR, ⟨1, 0, 0⟩⟩ = some A ∧ A.R_rect0_cam0 ≠ none := by
  have hm : mag3 ⟨1, 0, 0⟩ = 1 := by unfold mag3; norm_num
  have h1 := (rect_axes ⟨identityR, ⟨1, 0, 0⟩⟩).1
  have hne : rectAxes ⟨identityR, ⟨1, 0, 0⟩⟩ ≠ none := by
    intro hc; have := h1.mp hc; simp only [] at this; rw [hm] at this; norm_num at this
  obtain ⟨A, hA⟩ := Option.ne_none_iff_exists'.mp hne
  refine ⟨A, hA, fun hc => ?_⟩
  have := ((rect_axes _).2 A hA).2.2.2.2.1.mp hc
  have := congrArg P3.z this
  simp [perpForward, identityR] at this

/-! ### the whole system -/

/-- the steps of a successful `mrcal_rectified_system2()` -/
theorem system_some {roots : ℝ → ℝ → List ℝ} {ppd_az ppd_el : ℝ} {fov azel0_deg : P2} {margin : ℝ} {L : Lens} {intr : Int → ℝ}
    {rt0 rt1 : RtV} {m : RectType} {a e af ef : Bool} {S : RectSystem}
    (h : rectifiedSystem2 roots ppd_az ppd_el fov azel0_deg margin L intr rt0 rt1 m a e af ef = some S) :
    (e = false ∧ af = false ∧ ef = false) ∧ (m = .latlon ∨ m = .pinhole) ∧ ¬ rejectNoncentral L intr ∧ ppd_az ≠ 0 ∧ ppd_el ≠ 0 ∧ 0 < fov.x ∧ 0 < fov.y ∧
    ∃ A az0_deg az0, rectAxes (composeRt (Rt_from_rt rt0) (invertRt (Rt_from_rt rt1)) false false) = some A ∧
      azCenter a azel0_deg.x fov.x margin A.forward01 A.proj = some (az0_deg, az0) ∧
      (match A.R_rect0_cam0 with
        | some R => rectifiedResolution ppd_az ppd_el (fun p => (lensOut L intr p).map (·.proj)) fov ⟨az0_deg, azel0_deg.y⟩ (invertR R) m
        | none => if ppd_az < 0 ∨ ppd_el < 0 then none else some (ppdQuantised m fov.x ppd_az, ppdQuantised m fov.y ppd_el)) = some (S.ppd_az, S.ppd_el) ∧
      rectIntrinsics roots m S.ppd_az S.ppd_el fov ⟨az0, azel0_deg.y * Real.pi / 180⟩ = some (S.fxycxy, S.width, S.height) ∧
      0 < S.height ∧ S.baseline = A.baseline ∧ S.azel0_deg = ⟨az0_deg, azel0_deg.y⟩ ∧
      S.rt_rect0_ref = A.R_rect0_cam0.map fun R => rt_from_Rt (composeRt ⟨R, ⟨0, 0, 0⟩⟩ (Rt_from_rt rt0) false false) := by
  unfold rectifiedSystem2 at h
  by_cases c1 : e = true
  · rw [if_pos c1] at h; cases h
  rw [if_neg c1] at h
  by_cases c2 : af = true
  · rw [if_pos c2] at h; cases h
  rw [if_neg c2] at h
  by_cases c3 : ef = true
  · rw [if_pos c3] at h; cases h
  rw [if_neg c3] at h
  by_cases c4 : ¬ (m = .latlon ∨ m = .pinhole)
  · rw [if_pos c4] at h; cases h
  rw [if_neg c4] at h
  by_cases c5 : rejectNoncentral L intr
  · rw [if_pos c5] at h; cases h
  rw [if_neg c5] at h
  by_cases c6 : ppd_az = 0
  · rw [if_pos c6] at h; cases h
  rw [if_neg c6] at h
  by_cases c7 : ppd_el = 0
  · rw [if_pos c7] at h; cases h
  rw [if_neg c7] at h
  by_cases c8 : fov.x ≤ 0 ∨ fov.y ≤ 0
  · rw [if_pos c8] at h; cases h
  rw [if_neg c8] at h
  push Not at c8
  refine ⟨⟨by simpa using c1, by simpa using c2, by simpa using c3⟩, not_not.mp c4, c5, c6, c7, c8.1, c8.2, ?_⟩
  simp only [] at h
  split at h
  · cases h
  rename_i A hA
  split at h
  · cases h
  rename_i az0_deg az0 hz
  split at h
  · cases h
  rename_i pa pe hp
  split at h
  · cases h
  rename_i k w hh hi
  by_cases c9 : hh ≤ 0
  · rw [if_pos c9] at h; cases h
  rw [if_neg c9] at h
  have hS := Option.some.inj h
  subst hS
  exact ⟨A, az0_deg, az0, hA, hz, hp, hi, by simpa using c9, rfl, rfl, rfl⟩

/-- the rotations that are exactly represented by their rotation vector computed in C (theorem R_from_r_from_R): the sine of the angle is > 1e-8, or the angle is 0 or 180deg -/
def Representable (R : M3) : Prop := rEps ^ 2 < 1 - ((R.a00 + R.a11 + R.a22 - 1) / 2) ^ 2 ∨ transpose R = R

/-- the rotation from the reference to the rectified system is `Representable` -/
def RectRepresentable (rt0 rt1 : RtV) : Prop :=
  ∀ A Q, rectAxes (composeRt (Rt_from_rt rt0) (invertRt (Rt_from_rt rt1)) false false) = some A → A.R_rect0_cam0 = some Q →
    Representable (mul Q (Rt_from_rt rt0).R)

theorem Representable.roundtrip {R : M3} (h : Representable R) (hr : IsRot R) : R_from_r (r_from_R R) = R := by
  rcases h with h | h
  · exact (R_from_r_from_R R hr h).1
  · exact R_from_r_from_R_sym R hr h

theorem mag_rot {R : M3} (h : Orth R) (v : P3) : mag3 (mulVec R v) = mag3 v := by
  obtain ⟨c0, c1, c2, c01, c02, c12⟩ := h.cols
  unfold mag3 mulVec
  congr 1
  simp only []
  linear_combination v.x ^ 2 * c0 + v.y ^ 2 * c1 + v.z ^ 2 * c2 + 2 * v.x * v.y * c01 + 2 * v.x * v.z * c02 + 2 * v.y * v.z * c12

theorem mulVec_sub (R : M3) (a b : P3) : mulVec R (subP a b) = subP (mulVec R a) (mulVec R b) := by
  unfold mulVec subP
  ext <;> simp only [] <;> ring

theorem trf (T : Rt) (x : P3) : transformPointRt T x false = addP (mulVec T.R x) T.t := rfl
theorem tri (T : Rt) (x : P3) : transformPointRt T x true = mulVec (transpose T.R) (subP x T.t) := rfl

/-- **C37**: the rectified system. rect0 is camera0 rotated about its center; rect1 is the same rotation, about the center of camera1. So camera1 is at (baseline, 0, 0) in
the coordinates of rect0, and rect1 sees each world point shifted by the baseline. The poses describe this exactly if the rotation is `Representable` as a rotation vector -/
theorem rect_geometry {roots : ℝ → ℝ → List ℝ} {ppd_az ppd_el : ℝ} {fov azel0_deg : P2} {margin : ℝ} {L : Lens} {intr : Int → ℝ}
    {rt0 rt1 : RtV} {m : RectType} {a e af ef : Bool} {S : RectSystem} {rt : RtV}
    (h : rectifiedSystem2 roots ppd_az ppd_el fov azel0_deg margin L intr rt0 rt1 m a e af ef = some S) (hrt : S.rt_rect0_ref = some rt)
    (hrep : RectRepresentable rt0 rt1) :
    0 < S.baseline ∧ IsRot (Rt_from_rt rt).R ∧ (Rt_from_rt (rt_rect1_ref rt S.baseline)).R = (Rt_from_rt rt).R ∧
      (∃ Q0 Q1, IsRot Q0 ∧ IsRot Q1 ∧ ∀ w,
        transformPointRt (Rt_from_rt rt) w false = mulVec Q0 (transformPointRt (Rt_from_rt rt0) w false) ∧
        transformPointRt (Rt_from_rt (rt_rect1_ref rt S.baseline)) w false = mulVec Q1 (transformPointRt (Rt_from_rt rt1) w false)) ∧
      ∀ w, transformPointRt (Rt_from_rt (rt_rect1_ref rt S.baseline)) w false = fromCam1 S.baseline (transformPointRt (Rt_from_rt rt) w false) := by
  obtain ⟨-, -, -, -, -, -, -, A, az0_deg, az0, hA, -, -, -, -, hb, -, hR⟩ := system_some h
  set T0 := Rt_from_rt rt0 with hT0
  set T1 := Rt_from_rt rt1 with hT1
  have o0 : IsRot T0.R := R_from_r_rot rt0.r
  have o1 : IsRot T1.R := R_from_r_rot rt1.r
  obtain ⟨-, bpos, -, -, -, hax⟩ := (rect_axes _).2 A hA
  rw [hrt] at hR
  cases hQ : A.R_rect0_cam0 with
  | none => rw [hQ] at hR; cases hR
  | some Q =>
    rw [hQ] at hR
    have hrt' : rt = rt_from_Rt (composeRt ⟨Q, ⟨0, 0, 0⟩⟩ T0 false false) := Option.some.inj hR
    obtain ⟨hrot, hx, -⟩ := hax Q hQ
    have hcomp : IsRot (composeRt ⟨Q, ⟨0, 0, 0⟩⟩ T0 false false).R := compose_rot _ _ _ _ hrot o0
    refine ⟨hb ▸ bpos, R_from_r_rot _, rfl, ?_⟩
    have hrr : R_from_r (r_from_R (composeRt ⟨Q, ⟨0, 0, 0⟩⟩ T0 false false).R) = (composeRt ⟨Q, ⟨0, 0, 0⟩⟩ T0 false false).R :=
      Representable.roundtrip (hrep A Q hA hQ) hcomp
    have hTT : Rt_from_rt rt = composeRt ⟨Q, ⟨0, 0, 0⟩⟩ T0 false false := by
      rw [hrt']
      unfold Rt_from_rt rt_from_Rt
      rw [hrr]
    have h0 : ∀ w, transformPointRt (Rt_from_rt rt) w false = mulVec Q (transformPointRt T0 w false) := by
      intro w
      rw [hTT, compose_transform]
      simp [transformPointRt, rotatePointR, addP]
    have hshift : ∀ w, transformPointRt (Rt_from_rt (rt_rect1_ref rt S.baseline)) w false = fromCam1 S.baseline (transformPointRt (Rt_from_rt rt) w false) := by
      intro w
      rw [trf, trf]
      unfold rt_rect1_ref Rt_from_rt fromCam1 addP
      ext <;> simp only [] <;> ring
    have ht : (composeRt T0 (invertRt T1) false false).t = transformPointRt T0 (transformPointRt T1 ⟨0, 0, 0⟩ true) false := by
      have h1 := compose_transform T0 (invertRt T1) false false ⟨0, 0, 0⟩
      rw [(invert_transform T1 ⟨0, 0, 0⟩ o1.1).1] at h1
      rw [← h1, trf]
      unfold mulVec addP
      ext <;> simp only [] <;> ring
    have hsub : ∀ u v, subP (transformPointRt T0 u false) (transformPointRt T0 v false) = mulVec T0.R (subP u v) := by
      intro u v
      rw [trf, trf]
      unfold addP subP mulVec
      ext <;> simp only [] <;> ring
    have hinv : ∀ w, subP w (transformPointRt T1 ⟨0, 0, 0⟩ true) = mulVec (transpose T1.R) (transformPointRt T1 w false) := by
      intro w
      have := (transform_inverted T1 o1.1 w).1
      conv_lhs => rw [← this]
      rw [tri, tri, trf]
      unfold addP subP mulVec transpose
      ext <;> simp only [] <;> ring
    have ot : IsRot (transpose T1.R) := by
      refine ⟨?_, ?_⟩
      · unfold Orth; rw [toMat_transpose, Matrix.transpose_transpose]; exact o1.1.left
      · rw [toMat_transpose, Matrix.det_transpose]; exact o1.2
    have hmul : ∀ {A B : M3}, IsRot A → IsRot B → IsRot (mul A B) := by
      intro A B hA hB
      refine ⟨?_, ?_⟩
      · unfold Orth
        rw [toMat_mul, Matrix.transpose_mul, ← Matrix.mul_assoc, Matrix.mul_assoc (toMat A) (toMat B), hB.1, Matrix.mul_one]; exact hA.1
      · rw [toMat_mul, Matrix.det_mul, hA.2, hB.2, mul_one]
    have hmv : ∀ (A B : M3) v, mulVec (mul A B) v = mulVec A (mulVec B v) := by
      intro A B v
      unfold mul mulVec vecMul
      ext <;> simp only [] <;> ring
    refine ⟨⟨Q, mul Q (mul T0.R (transpose T1.R)), hrot, hmul hrot (hmul o0 ot), fun w => ⟨h0 w, ?_⟩⟩, hshift⟩
    rw [hshift, h0, hmv, hmv, ← hinv, ← hsub, mulVec_sub, ← ht, hx, hb]
    unfold fromCam1 subP
    ext <;> simp

/-- **C37**: each world point is seen in the same row by both rectified cameras, and the ranges seen by the rectified cameras are the distances to the real cameras -/
theorem rect_rows {roots : ℝ → ℝ → List ℝ} {ppd_az ppd_el : ℝ} {fov azel0_deg : P2} {margin : ℝ} {L : Lens} {intr : Int → ℝ}
    {rt0 rt1 : RtV} {m : RectType} {a e af ef : Bool} {S : RectSystem} {rt : RtV}
    (h : rectifiedSystem2 roots ppd_az ppd_el fov azel0_deg margin L intr rt0 rt1 m a e af ef = some S) (hrt : S.rt_rect0_ref = some rt)
    (hrep : RectRepresentable rt0 rt1) (w : P3) :
    let p0 := transformPointRt (Rt_from_rt rt) w false
    let p1 := transformPointRt (Rt_from_rt (rt_rect1_ref rt S.baseline)) w false
    (latlon S.fxycxy p0).q.y = (latlon S.fxycxy p1).q.y ∧ (pinhole S.fxycxy p0).q.y = (pinhole S.fxycxy p1).q.y ∧
    mag3 p0 = mag3 (transformPointRt (Rt_from_rt rt0) w false) ∧ mag3 p1 = mag3 (transformPointRt (Rt_from_rt rt1) w false) := by
  intro p0 p1
  obtain ⟨hb, -, -, ⟨Q0, Q1, q0, q1, hq⟩, hs⟩ := rect_geometry h hrt hrep
  have e : p1 = fromCam1 S.baseline p0 := hs w
  refine ⟨by rw [e]; rfl, by rw [e]; rfl, ?_, ?_⟩
  · rw [show p0 = _ from (hq w).1, mag_rot q0.1]
  · rw [show p1 = _ from (hq w).2, mag_rot q1.1]

/-- **C36, C37**: the whole chain: rectify, get the disparity of a world point, ask for its range: that is its distance from camera0 -/
theorem stereo_chain {roots : ℝ → ℝ → List ℝ} {ppd_az ppd_el : ℝ} {fov azel0_deg : P2} {margin : ℝ} {L : Lens} {intr : Int → ℝ}
    {rt0 rt1 : RtV} {m : RectType} {a e af ef : Bool} {S : RectSystem} {rt : RtV}
    (h : rectifiedSystem2 roots ppd_az ppd_el fov azel0_deg margin L intr rt0 rt1 m a e af ef = some S) (hrt : S.rt_rect0_ref = some rt)
    (hrep : RectRepresentable rt0 rt1) (hfx : S.fxycxy.fx ≠ 0) (hfy : S.fxycxy.fy ≠ 0) (w : P3) :
    let p0 := transformPointRt (Rt_from_rt rt) w false
    let p1 := transformPointRt (Rt_from_rt (rt_rect1_ref rt S.baseline)) w false
    let D := mag3 (transformPointRt (Rt_from_rt rt0) w false)
    (p0.y ≠ 0 ∨ p0.z ≠ 0 →
      rangeOne .latlon S.fxycxy S.baseline ((latlon S.fxycxy p0).q.x - (latlon S.fxycxy p1).q.x) (latlon S.fxycxy p0).q = D) ∧
    (0 < p0.z → rangeOne .pinhole S.fxycxy S.baseline ((pinhole S.fxycxy p0).q.x - (pinhole S.fxycxy p1).q.x) (pinhole S.fxycxy p0).q = D) := by
  intro p0 p1 D
  obtain ⟨hb, -, -, -, hs⟩ := rect_geometry h hrt hrep
  have e : p1 = fromCam1 S.baseline p0 := hs w
  have hD : D = mag3 p0 := (rect_rows h hrt hrep w).2.2.1.symm
  rw [hD, e]
  exact ⟨fun hp => range_latlon _ hfx _ hb.ne' _ hp, fun hp => range_pinhole _ hfx hfy _ hb.ne' _ hp⟩

end Mrcal.Stereo
