import Verif.Model.OpenCV
import Verif.Props.CameraProps
/-
C23: the OpenCV projections.
-/
namespace Mrcal.Cam

/-- the number of distortion parameters in each of the OpenCV models: OPENCV4, OPENCV5, OPENCV8, OPENCV12 -/
def IsOcv (n : Nat) : Prop := n = 4 ∨ n = 5 ∨ n = 8 ∨ n = 12

/-- the denominator of the distortion -/
noncomputable def ocvDen (k : Nat → ℝ) (p : P3) : ℝ :=
  1 + k 5 * (ocv k p).r2 + k 6 * (ocv k p).r4 + k 7 * (ocv k p).r6

/-- inner product of the reported columns and the rates of the parameters -/
def dotRow (row : List ℝ) (rate : Nat → ℝ) : ℝ := ((row.zipIdx).map fun e => e.1 * rate e.2).sum

/-- the total derivative, with 12 parameters -/
theorem ocv_total {c : ℝ → P3} {k : ℝ → Nat → ℝ} {v : P3} {k' : Nat → ℝ} {t : ℝ} (hz : (c t).z ≠ 0)
    (hden : ocvDen (k t) (c t) ≠ 0)
    (hx : HasDerivAt (fun s => (c s).x) v.x t) (hy : HasDerivAt (fun s => (c s).y) v.y t)
    (hcz : HasDerivAt (fun s => (c s).z) v.z t) (hk : ∀ i, HasDerivAt (fun s => k s i) (k' i) t) :
    let s := ocv (k t) (c t)
    let x' := v.x * s.z_recip + (-s.x * s.z_recip) * v.z
    let y' := v.y * s.z_recip + (-s.y * s.z_recip) * v.z
    HasDerivAt (fun s => (ocv (k s) (c s)).xd)
      ((ocvDp1 ⟨1, 1, 0, 0⟩ (k t) s x' y').x +
       (s.x * s.icdist2 * s.r2 * k' 0 + s.x * s.icdist2 * s.r4 * k' 1 + s.a1 * k' 2 + s.a2 * k' 3 +
        s.x * s.icdist2 * s.r6 * k' 4 + s.x * s.cdist * (-s.icdist2) * s.icdist2 * s.r2 * k' 5 +
        s.x * s.cdist * (-s.icdist2) * s.icdist2 * s.r4 * k' 6 +
        s.x * s.cdist * (-s.icdist2) * s.icdist2 * s.r6 * k' 7 + s.r2 * k' 8 + s.r4 * k' 9)) t ∧
    HasDerivAt (fun s => (ocv (k s) (c s)).yd)
      ((ocvDp1 ⟨1, 1, 0, 0⟩ (k t) s x' y').y +
       (s.y * s.icdist2 * s.r2 * k' 0 + s.y * s.icdist2 * s.r4 * k' 1 + s.a3 * k' 2 + s.a1 * k' 3 +
        s.y * s.icdist2 * s.r6 * k' 4 + s.y * s.cdist * (-s.icdist2) * s.icdist2 * s.r2 * k' 5 +
        s.y * s.cdist * (-s.icdist2) * s.icdist2 * s.r4 * k' 6 +
        s.y * s.cdist * (-s.icdist2) * s.icdist2 * s.r6 * k' 7 + s.r2 * k' 10 + s.r4 * k' 11)) t := by
  intro s x' y'
  have hzr : HasDerivAt (fun s => 1 / (c s).z) (-v.z * (1 / (c t).z) * (1 / (c t).z)) t := by
    have e : (fun s => 1 / (c s).z) = (fun s => (c s).z)⁻¹ := funext fun s => by simp
    rw [e]
    refine HasDerivAt.congr_deriv (hcz.inv hz) ?_
    field_simp
  have dX : HasDerivAt (fun s => (ocv (k s) (c s)).x) x' t := by
    refine HasDerivAt.congr_deriv (hx.mul hzr) ?_
    simp only [x', s, ocv]; ring
  have dY : HasDerivAt (fun s => (ocv (k s) (c s)).y) y' t := by
    refine HasDerivAt.congr_deriv (hy.mul hzr) ?_
    simp only [y', s, ocv]; ring
  have dR2 : HasDerivAt (fun s => (ocv (k s) (c s)).r2) (2 * s.x * x' + 2 * s.y * y') t := by
    have h := ((dX.mul dX).add (dY.mul dY))
    exact HasDerivAt.congr_deriv h (by simp only [s]; ring)
  set r' := 2 * s.x * x' + 2 * s.y * y' with hr'
  have dR4 : HasDerivAt (fun s => (ocv (k s) (c s)).r4) (2 * s.r2 * r') t := by
    have h := (dR2.mul dR2)
    exact HasDerivAt.congr_deriv h (by simp only [s]; ring)
  have dR6 : HasDerivAt (fun s => (ocv (k s) (c s)).r6) (3 * s.r4 * r') t := by
    have h := (dR4.mul dR2)
    exact HasDerivAt.congr_deriv h (by
      have : s.r4 = s.r2 * s.r2 := rfl
      simp only [s] at this ⊢
      rw [this]; ring)
  have dA1 : HasDerivAt (fun s => (ocv (k s) (c s)).a1) (2 * (s.x * y' + s.y * x')) t := by
    have h := ((dX.const_mul 2).mul dY)
    exact HasDerivAt.congr_deriv h (by simp only [s]; ring)
  have dA2 : HasDerivAt (fun s => (ocv (k s) (c s)).a2) (r' + 4 * s.x * x') t := by
    have h := (dR2.add ((dX.const_mul 2).mul dX))
    exact HasDerivAt.congr_deriv h (by simp only [s]; ring)
  have dA3 : HasDerivAt (fun s => (ocv (k s) (c s)).a3) (r' + 4 * s.y * y') t := by
    have h := (dR2.add ((dY.const_mul 2).mul dY))
    exact HasDerivAt.congr_deriv h (by simp only [s]; ring)
  have dC : HasDerivAt (fun s => (ocv (k s) (c s)).cdist)
      ((k t 0 * r' + 2 * k t 1 * s.r2 * r' + 3 * k t 4 * s.r4 * r') + (s.r2 * k' 0 + s.r4 * k' 1 + s.r6 * k' 4)) t := by
    have h := (((((hk 0).mul dR2).const_add 1).add ((hk 1).mul dR4)).add ((hk 4).mul dR6))
    refine HasDerivAt.congr_deriv h ?_
    simp only [s]; ring
  have dD : HasDerivAt (fun s => ocvDen (k s) (c s))
      ((k t 5 * r' + 2 * k t 6 * s.r2 * r' + 3 * k t 7 * s.r4 * r') + (s.r2 * k' 5 + s.r4 * k' 6 + s.r6 * k' 7)) t := by
    have h := (((((hk 5).mul dR2).const_add 1).add ((hk 6).mul dR4)).add ((hk 7).mul dR6))
    refine HasDerivAt.congr_deriv h ?_
    simp only [s]; ring
  have eI : s.icdist2 = 1 / ocvDen (k t) (c t) := rfl
  have dI : HasDerivAt (fun s => (ocv (k s) (c s)).icdist2)
      (-s.icdist2 * s.icdist2 * ((k t 5 * r' + 2 * k t 6 * s.r2 * r' + 3 * k t 7 * s.r4 * r') + (s.r2 * k' 5 + s.r4 * k' 6 + s.r6 * k' 7))) t := by
    have e : (fun s => (ocv (k s) (c s)).icdist2) = (fun s => ocvDen (k s) (c s))⁻¹ := funext fun s => by
      show 1 / ocvDen (k s) (c s) = (ocvDen (k s) (c s))⁻¹
      simp
    rw [e]
    refine HasDerivAt.congr_deriv (dD.inv hden) ?_
    rw [eI]
    field_simp
  constructor
  · have h := (((((dX.mul dC).mul dI).add ((hk 2).mul dA1)).add ((hk 3).mul dA2)).add ((hk 8).mul dR2)).add ((hk 9).mul dR4)
    refine HasDerivAt.congr_deriv h ?_
    simp only [ocvDp1, s, ← hr', Pi.mul_apply]
    ring
  · have h := (((((dY.mul dC).mul dI).add ((hk 2).mul dA3)).add ((hk 3).mul dA1)).add ((hk 10).mul dR2)).add ((hk 11).mul dR4)
    refine HasDerivAt.congr_deriv h ?_
    simp only [ocvDp1, s, ← hr', Pi.mul_apply]
    ring

theorem ocvDp1_core (c : Core) (k : Nat → ℝ) (s : OcvState) (a b : ℝ) :
    (ocvDp1 c k s a b).x = c.fx * (ocvDp1 ⟨1, 1, 0, 0⟩ k s a b).x ∧ (ocvDp1 c k s a b).y = c.fy * (ocvDp1 ⟨1, 1, 0, 0⟩ k s a b).y := by
  simp only [ocvDp1, one_mul, and_self]

/-- C23, specification: the reported gradients give the rate of change of the pixel when the point, the focal lengths, the center pixel
and the distortion parameters all move, in any way. -/
def TotalDeriv (n : Nat) (Q : Core → (Nat → ℝ) → P3 → P2) (core : Core) (d : Nat → ℝ) (p : P3)
    (dqdp : P3 × P3) (dqdf : P2) (dqdk : List P2) : Prop :=
  dqdk.length = n ∧
  ∀ (C : ℝ → Core) (D : ℝ → Nat → ℝ) (P : ℝ → P3) (C' : Core) (D' : Nat → ℝ) (P' : P3) (t : ℝ),
    C t = core → D t = d → P t = p →
    HasDerivAt (fun s => (C s).fx) C'.fx t → HasDerivAt (fun s => (C s).fy) C'.fy t →
    HasDerivAt (fun s => (C s).cx) C'.cx t → HasDerivAt (fun s => (C s).cy) C'.cy t →
    (∀ i, HasDerivAt (fun s => D s i) (D' i) t) →
    HasDerivAt (fun s => (P s).x) P'.x t → HasDerivAt (fun s => (P s).y) P'.y t → HasDerivAt (fun s => (P s).z) P'.z t →
    HasDerivAt (fun s => (Q (C s) (D s) (P s)).x)
      ((dqdp.1.x * P'.x + dqdp.1.y * P'.y + dqdp.1.z * P'.z) + dqdf.x * C'.fx + C'.cx + dotRow (dqdk.map P2.x) D') t ∧
    HasDerivAt (fun s => (Q (C s) (D s) (P s)).y)
      ((dqdp.2.x * P'.x + dqdp.2.y * P'.y + dqdp.2.z * P'.z) + dqdf.y * C'.fy + C'.cy + dotRow (dqdk.map P2.y) D') t

theorem padK_deriv (n : Nat) {D : ℝ → Nat → ℝ} {D' : Nat → ℝ} {t : ℝ} (h : ∀ i, HasDerivAt (fun s => D s i) (D' i) t) (i : Nat) :
    HasDerivAt (fun s => padK n (D s) i) (padK n D' i) t := by
  unfold padK
  by_cases hi : i < n
  · simp only [hi, if_true]; exact h i
  · simp only [hi, if_false]; exact hasDerivAt_const _ _

/-- the reported columns, against the rates of the parameters -/
theorem ocvDk_dot (n : Nat) (hn : IsOcv n) (c : Core) (k D' : Nat → ℝ) (p : P3) :
    let s := ocv k p
    let k' := padK n D'
    dotRow ((ocvDk n c k p).map P2.x) D' = c.fx *
      (s.x * s.icdist2 * s.r2 * k' 0 + s.x * s.icdist2 * s.r4 * k' 1 + s.a1 * k' 2 + s.a2 * k' 3 +
        s.x * s.icdist2 * s.r6 * k' 4 + s.x * s.cdist * (-s.icdist2) * s.icdist2 * s.r2 * k' 5 +
        s.x * s.cdist * (-s.icdist2) * s.icdist2 * s.r4 * k' 6 +
        s.x * s.cdist * (-s.icdist2) * s.icdist2 * s.r6 * k' 7 + s.r2 * k' 8 + s.r4 * k' 9) ∧
    dotRow ((ocvDk n c k p).map P2.y) D' = c.fy *
      (s.y * s.icdist2 * s.r2 * k' 0 + s.y * s.icdist2 * s.r4 * k' 1 + s.a3 * k' 2 + s.a1 * k' 3 +
        s.y * s.icdist2 * s.r6 * k' 4 + s.y * s.cdist * (-s.icdist2) * s.icdist2 * s.r2 * k' 5 +
        s.y * s.cdist * (-s.icdist2) * s.icdist2 * s.r4 * k' 6 +
        s.y * s.cdist * (-s.icdist2) * s.icdist2 * s.r6 * k' 7 + s.r2 * k' 10 + s.r4 * k' 11) := by
  intro s k'
  unfold ocvDk
  rw [show ocv k p = s from rfl]
  clear_value s
  rcases hn with rfl | rfl | rfl | rfl <;> constructor <;>
    simp [dotRow, k', padK] <;> ring

/-- **C23**: all the gradients of all the OpenCV projections, with respect to everything -/
theorem opencv_gradients (n : Nat) (hn : IsOcv n) (core : Core) (hfx : core.fx ≠ 0) (hfy : core.fy ≠ 0) (d : Nat → ℝ) (p : P3)
    (hz : p.z ≠ 0) (hden : ocvDen (padK n d) p ≠ 0) :
    TotalDeriv n (fun c d p => ocvQ c (padK n d) p) core d p (ocvDp core (padK n d) p)
      (dqDfxy core (ocvQ core (padK n d) p)) (ocvDk n core (padK n d) p) := by
  constructor
  · rcases hn with rfl | rfl | rfl | rfl <;> rfl
  · intro C D P C' D' P' t eC eD eP h1 h2 h3 h4 hD hx hy hz'
    subst eC eD eP
    obtain ⟨tx, ty⟩ := ocv_total hz hden hx hy hz' (padK_deriv n hD)
    constructor
    · refine HasDerivAt.congr_deriv ((tx.mul h1).add h3) ?_
      simp only [ocvDp, dqDfxy, ocvQ]
      rw [(ocvDp1_core (C t) _ _ _ _).1, (ocvDp1_core (C t) _ _ _ _).1, (ocvDp1_core (C t) _ _ _ _).1]
      have e : ∀ k s, (ocvDp1 ⟨1, 1, 0, 0⟩ k s (P'.x * s.z_recip + -s.x * s.z_recip * P'.z) (P'.y * s.z_recip + -s.y * s.z_recip * P'.z)).x
          = (ocvDp1 ⟨1, 1, 0, 0⟩ k s s.z_recip 0).x * P'.x + (ocvDp1 ⟨1, 1, 0, 0⟩ k s 0 s.z_recip).x * P'.y + (ocvDp1 ⟨1, 1, 0, 0⟩ k s (-s.x * s.z_recip) (-s.y * s.z_recip)).x * P'.z := by
        intro k s; simp only [ocvDp1]; ring
      rw [e]
      have e2 : ((ocv (padK n (D t)) (P t)).xd * (C t).fx + (C t).cx - (C t).cx) / (C t).fx = (ocv (padK n (D t)) (P t)).xd := by
        field_simp; ring
      rw [e2, (ocvDk_dot n hn (C t) (padK n (D t)) D' (P t)).1]
      ring
    · refine HasDerivAt.congr_deriv ((ty.mul h2).add h4) ?_
      simp only [ocvDp, dqDfxy, ocvQ]
      rw [(ocvDp1_core (C t) _ _ _ _).2, (ocvDp1_core (C t) _ _ _ _).2, (ocvDp1_core (C t) _ _ _ _).2]
      have e : ∀ k s, (ocvDp1 ⟨1, 1, 0, 0⟩ k s (P'.x * s.z_recip + -s.x * s.z_recip * P'.z) (P'.y * s.z_recip + -s.y * s.z_recip * P'.z)).y
          = (ocvDp1 ⟨1, 1, 0, 0⟩ k s s.z_recip 0).y * P'.x + (ocvDp1 ⟨1, 1, 0, 0⟩ k s 0 s.z_recip).y * P'.y + (ocvDp1 ⟨1, 1, 0, 0⟩ k s (-s.x * s.z_recip) (-s.y * s.z_recip)).y * P'.z := by
        intro k s; simp only [ocvDp1]; ring
      rw [e]
      have e2 : ((ocv (padK n (D t)) (P t)).yd * (C t).fy + (C t).cy - (C t).cy) / (C t).fy = (ocv (padK n (D t)) (P t)).yd := by
        field_simp; ring
      rw [e2, (ocvDk_dot n hn (C t) (padK n (D t)) D' (P t)).2]
      ring

example : ocvDen (padK 8 fun i => (i : ℝ) / 10) ⟨1, 2, 2⟩ ≠ 0 := by
  simp [ocvDen, ocv, padK]; norm_num

example : IsOcv 8 := by simp [IsOcv]

/-- the coefficients are looked at only up to Nintrinsics-4: parameters past the end of the array don't matter -/
theorem opencv_reads_own (n : Nat) (c : Core) (d d' : Nat → ℝ) (p : P3) (h : ∀ i < n, d i = d' i) :
    ocvQ c (padK n d) p = ocvQ c (padK n d') p := by
  have e : padK n d = padK n d' := by
    funext i; unfold padK; split
    · exact h i (by assumption)
    · rfl
  rw [e]

/-- **C23**: the models are nested: a larger model whose extra coefficients are all 0 projects as the smaller model does, and reports the same gradients -/
theorem opencv_nested (m n : Nat) (hmn : m ≤ n) (c : Core) (d : Nat → ℝ) (p : P3) (h : ∀ i, m ≤ i → i < n → d i = 0) :
    ocvQ c (padK n d) p = ocvQ c (padK m d) p ∧ ocvDp c (padK n d) p = ocvDp c (padK m d) p ∧
    (IsOcv m → IsOcv n → ocvDk m c (padK m d) p <+: ocvDk n c (padK n d) p) := by
  have e : padK n d = padK m d := by
    funext i
    unfold padK
    by_cases h1 : i < m
    · rw [if_pos (by omega), if_pos h1]
    · rw [if_neg h1]
      split
      · exact h i (by omega) (by assumption)
      · rfl
  rw [e]
  refine ⟨rfl, rfl, ?_⟩
  intro hm hn
  unfold ocvDk
  rcases hm with rfl | rfl | rfl | rfl <;> rcases hn with rfl | rfl | rfl | rfl <;>
    first
    | omega
    | simp

example : ∀ i, 4 ≤ i → i < 8 → (fun i : Nat => if i < 4 then (1 : ℝ) else 0) i = 0 := by
  intro i h1 h2
  simp only [if_neg (by omega : ¬ i < 4)]

/-- **C23**: with all-zero distortions every OpenCV model is the pinhole model, in projection and in gradients. The same with no distortion parameters at
all (n=0): the path mrcal_project() takes for LENSMODEL_PINHOLE -/
theorem opencv_zero (n : Nat) (c : Core) (d : Nat → ℝ) (p : P3) (_hz : p.z ≠ 0) (h : ∀ i < n, d i = 0) :
    ocvQ c (padK n d) p = (pinhole c p).q ∧
    ocvDp c (padK n d) p = ((pinhole c p).dqx, (pinhole c p).dqy) := by
  have e : padK n d = fun _ => 0 := by
    funext i; unfold padK; split
    · exact h i (by assumption)
    · rfl
  rw [e]
  constructor
  · simp only [ocvQ, ocv, pinhole]
    ext <;> simp <;> ring
  · simp only [ocvDp, ocvDp1, ocv, pinhole]
    ext <;> simp <;> ring

/-- scaling the point doesn't move the pixel, even when the scale is negative: a point behind the camera projects to the pixel its mirror image does -/
theorem opencv_scale (c : Core) (k : Nat → ℝ) (p : P3) (hz : p.z ≠ 0) (a : ℝ) (ha : a ≠ 0) :
    ocvQ c k ⟨a * p.x, a * p.y, a * p.z⟩ = ocvQ c k p := by
  have ex : a * p.x * (1 / (a * p.z)) = p.x * (1 / p.z) := by
    field_simp
  have ey : a * p.y * (1 / (a * p.z)) = p.y * (1 / p.z) := by
    field_simp
  simp only [ocvQ, ocv, ex, ey]

example : (-2 : ℝ) ≠ 0 := by norm_num

/-- on the optical axis the OpenCV models report the center pixel -/
theorem opencv_axis (c : Core) (k : Nat → ℝ) (z : ℝ) (_hz : z ≠ 0) : ocvQ c k ⟨0, 0, z⟩ = ⟨c.cx, c.cy⟩ := by
  simp [ocvQ, ocv]

end Mrcal.Cam
