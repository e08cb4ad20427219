import Verif.Model.OffPinhole
import Mathlib.Tactic
/-
C129: the plots of how far a lens is off a pinhole.
-/
namespace Mrcal.OffPinhole
open Mrcal.Cam

/-! ### angles -/

/-- spec: the angle of a vector off the optical axis, in degrees, from the dot product with the axis -/
noncomputable def offAxis (v : P3) : ℝ := 180 / Real.pi * Real.arccos (v.z / Real.sqrt (v.x ^ 2 + v.y ^ 2 + v.z ^ 2))

/-- C129: the angle on the axes of the plot is the angle between the vector and the optical axis -/
theorem angle_meaning (v : P3) (h : v ≠ ⟨0, 0, 0⟩) : thDeg v = offAxis v := by
  unfold thDeg offAxis atan2
  have hne : (⟨v.z, Real.sqrt (v.x * v.x + v.y * v.y)⟩ : ℂ) ≠ 0 := by
    intro he
    have h1 := congrArg Complex.re he
    have h2 := congrArg Complex.im he
    simp only [Complex.zero_re, Complex.zero_im] at h1 h2
    have h3 := (Real.sqrt_eq_zero (by nlinarith [mul_self_nonneg v.x, mul_self_nonneg v.y])).1 h2
    apply h
    ext
    · nlinarith [mul_self_nonneg v.x, mul_self_nonneg v.y]
    · nlinarith [mul_self_nonneg v.x, mul_self_nonneg v.y]
    · exact h1
  have hc := Complex.cos_arg hne
  have habs : ‖(⟨v.z, Real.sqrt (v.x * v.x + v.y * v.y)⟩ : ℂ)‖ = Real.sqrt (v.x ^ 2 + v.y ^ 2 + v.z ^ 2) := by
    rw [Complex.norm_eq_sqrt_sq_add_sq, Real.sq_sqrt (by nlinarith [mul_self_nonneg v.x, mul_self_nonneg v.y])]
    congr 1; ring
  rw [habs] at hc
  have h0 : 0 ≤ Complex.arg ⟨v.z, Real.sqrt (v.x * v.x + v.y * v.y)⟩ := Complex.arg_nonneg_iff.2 (Real.sqrt_nonneg _)
  rw [← Real.arccos_cos h0 (Complex.arg_le_pi _), hc]

example : thDeg ⟨0, 0, 1⟩ = offAxis ⟨0, 0, 1⟩ := angle_meaning _ (by simp [P3.ext_iff])

/-- in front of the camera the angle is below 90°, and its tangent is as expected -/
theorem thDeg_front (v : P3) (h : 0 < v.z) : thDeg v = 180 / Real.pi * Real.arctan (Real.sqrt (v.x * v.x + v.y * v.y) / v.z) := by
  unfold thDeg atan2
  have h1 := Complex.tan_arg ⟨v.z, Real.sqrt (v.x * v.x + v.y * v.y)⟩
  have h2 := Complex.abs_arg_lt_pi_div_two_iff.2 (Or.inl (show 0 < (⟨v.z, Real.sqrt (v.x * v.x + v.y * v.y)⟩ : ℂ).re from h))
  rw [abs_lt] at h2
  simp only at h1
  rw [← h1, Real.arctan_tan h2.1 h2.2]

theorem deg_rad (x : ℝ) : 180 / Real.pi * x * Real.pi / 180 = x := by
  have := Real.pi_ne_zero
  field_simp

/-! ### the OpenCV curve -/

/-- spec: the model has no distortion other than the radial: no tangential terms, no thin prisms -/
def RadialOnly (N : Nat) (k : Nat → ℝ) : Prop := k 2 = 0 ∧ k 3 = 0 ∧ (N = 12 → k 8 = 0 ∧ k 9 = 0 ∧ k 10 = 0 ∧ k 11 = 0)

theorem radialScale_ocv (N : Nat) (hN : N = 4 ∨ N = 5 ∨ N = 8 ∨ N = 12) (k : Nat → ℝ) (p : P3) :
    radialScale N k (Real.sqrt (p.x * p.x + p.y * p.y) / p.z) = (ocv (padK N k) p).cdist * (ocv (padK N k) p).icdist2 := by
  have hr : Real.sqrt (p.x * p.x + p.y * p.y) / p.z * (Real.sqrt (p.x * p.x + p.y * p.y) / p.z) = p.x * (1 / p.z) * (p.x * (1 / p.z)) + p.y * (1 / p.z) * (p.y * (1 / p.z)) := by
    rw [div_mul_div_comm, Real.mul_self_sqrt (by nlinarith [mul_self_nonneg p.x, mul_self_nonneg p.y])]
    ring
  unfold radialScale poly
  simp only [hr, ocv]
  generalize p.x * (1 / p.z) * (p.x * (1 / p.z)) + p.y * (1 / p.z) * (p.y * (1 / p.z)) = r2
  rcases hN with h | h | h | h <;> subst h <;> norm_num [padK] <;> ring

theorem ocv_radial (N : Nat) (hN : N = 4 ∨ N = 5 ∨ N = 8 ∨ N = 12) (k : Nat → ℝ) (h : RadialOnly N k) (p : P3) :
    (ocv (padK N k) p).xd = p.x / p.z * ((ocv (padK N k) p).cdist * (ocv (padK N k) p).icdist2) ∧
    (ocv (padK N k) p).yd = p.y / p.z * ((ocv (padK N k) p).cdist * (ocv (padK N k) p).icdist2) := by
  obtain ⟨h2, h3, h4⟩ := h
  have g : ∀ i : Nat, i = 2 ∨ i = 3 ∨ i = 8 ∨ i = 9 ∨ i = 10 ∨ i = 11 → padK N k i = 0 := by
    intro i hi
    unfold padK
    split_ifs with hlt
    · rcases hi with rfl | rfl | hi
      · exact h2
      · exact h3
      · have : N = 12 := by omega
        obtain ⟨h8, h9, h10, h11⟩ := h4 this
        rcases hi with rfl | rfl | rfl | rfl <;> assumption
    · rfl
  simp only [ocv, g 2 (by simp), g 3 (by simp), g 8 (by simp), g 9 (by simp), g 10 (by simp), g 11 (by simp)]
  constructor <;> ring

/-- spec: the factor that the radial distortion of an OpenCV model applies to a point -/
noncomputable def factor (N : Nat) (k : Nat → ℝ) (p : P3) : ℝ := (ocv (padK N k) p).cdist * (ocv (padK N k) p).icdist2

theorem pinhole_angle (N : Nat) (hN : N = 4 ∨ N = 5 ∨ N = 8 ∨ N = 12) (k : Nat → ℝ) (h : RadialOnly N k) (c : Core) (hx : c.fx ≠ 0) (hy : c.fy ≠ 0) (p : P3) (hz : 0 < p.z) :
    thDeg (unpinhole c (ocvQ c (padK N k) p)).v = 180 / Real.pi * Real.arctan (Real.sqrt (p.x * p.x + p.y * p.y) / p.z * |factor N k p|) := by
  rw [thDeg_front _ (by simp [unpinhole])]
  obtain ⟨h1, h2⟩ := ocv_radial N hN k h p
  have e1 : (unpinhole c (ocvQ c (padK N k) p)).v.x = p.x / p.z * factor N k p := by
    simp only [unpinhole, ocvQ, h1, factor]; field_simp; ring
  have e2 : (unpinhole c (ocvQ c (padK N k) p)).v.y = p.y / p.z * factor N k p := by
    simp only [unpinhole, ocvQ, h2, factor]; field_simp; ring
  have e3 : (unpinhole c (ocvQ c (padK N k) p)).v.z = 1 := rfl
  rw [e1, e2, e3, div_one]
  congr 2
  have : p.x / p.z * factor N k p * (p.x / p.z * factor N k p) + p.y / p.z * factor N k p * (p.y / p.z * factor N k p)
      = (p.x * p.x + p.y * p.y) * (factor N k p / p.z) ^ 2 := by ring
  rw [this, Real.sqrt_mul (by nlinarith [mul_self_nonneg p.x, mul_self_nonneg p.y]), Real.sqrt_sq_eq_abs, abs_div, abs_of_pos hz]
  ring

/-- C129: the curve of an OpenCV model. A point in front of the camera, at some angle off the axis, is projected by a model with radial distortion only. The pinhole camera with
the same core sees that pixel at the angle that the curve gives: wherever the point is around the axis, and whatever the focal lengths are. Where the radial factor is
negative the curve is below 0 instead -/
theorem opencv_curve (N : Nat) (hN : N = 4 ∨ N = 5 ∨ N = 8 ∨ N = 12) (k : Nat → ℝ) (h : RadialOnly N k) (c : Core) (hx : c.fx ≠ 0) (hy : c.fy ≠ 0) (p : P3) (hz : 0 < p.z) :
    (0 ≤ factor N k p → opencvCurve N k (offAxis p) = offAxis (unpinhole c (ocvQ c (padK N k) p)).v) ∧
    (factor N k p ≤ 0 → opencvCurve N k (offAxis p) = -offAxis (unpinhole c (ocvQ c (padK N k) p)).v) := by
  have hp : p ≠ ⟨0, 0, 0⟩ := by intro he; rw [he] at hz; exact lt_irrefl _ hz
  have hq : (unpinhole c (ocvQ c (padK N k) p)).v ≠ ⟨0, 0, 0⟩ := by
    intro he
    have := congrArg P3.z he
    simp [unpinhole] at this
  rw [← angle_meaning _ hp, ← angle_meaning _ hq, pinhole_angle N hN k h c hx hy p hz, thDeg_front p hz]
  unfold opencvCurve
  rw [deg_rad, Real.tan_arctan, radialScale_ocv N hN k p]
  constructor
  · intro hf
    rw [abs_of_nonneg hf]; rfl
  · intro hf
    rw [abs_of_nonpos hf, mul_neg, Real.arctan_neg, mul_neg, neg_neg]; rfl

example : RadialOnly 8 (fun i => if i = 0 ∨ i = 5 then 1 / 10 else 0) ∧ 0 ≤ factor 8 (fun i => if i = 0 ∨ i = 5 then 1 / 10 else 0) ⟨1, 0, 1⟩ := by
  refine ⟨⟨by norm_num, by norm_num, by norm_num⟩, ?_⟩
  norm_num [factor, ocv, padK]

/-- C129, negation: "the above equations plot them exactly" (visualization.py:2365) isn't so for OpenCV models in general: with tangential distortion the projection isn't on the curve -/
theorem exact_wrong : ∃ (k : Nat → ℝ) (c : Core) (p : P3), 0 < p.z ∧ 0 < factor 4 k p ∧ c.fx = 1 ∧ c.fy = 1 ∧
    opencvCurve 4 k (offAxis p) ≠ offAxis (unpinhole c (ocvQ c (padK 4 k) p)).v := by
  refine ⟨fun i => if i = 2 then 1 else 0, ⟨1, 1, 0, 0⟩, ⟨0, 1, 1⟩, by norm_num, by norm_num [factor, ocv, padK], rfl, rfl, ?_⟩
  rw [← angle_meaning _ (by simp [P3.ext_iff]), ← angle_meaning _ (by simp [P3.ext_iff, unpinhole]), thDeg_front _ (by norm_num), thDeg_front _ (by simp [unpinhole])]
  unfold opencvCurve
  rw [deg_rad, Real.tan_arctan]
  have hpi := Real.pi_ne_zero
  intro he
  have he := Real.arctan_injective (mul_left_cancel₀ (by positivity) he)
  have e4 : Real.sqrt 16 = 4 := by rw [show (16 : ℝ) = 4 ^ 2 by norm_num, Real.sqrt_sq (by norm_num)]
  norm_num [radialScale, poly, unpinhole, ocvQ, ocv, padK, e4] at he

/-- C129: the curve "stereographic" is mrcal's stereographic projection: the pinhole camera sees the pixel of a stereographic projection at the angle on that curve -/
theorem stereographic_curve (c : Core) (hx : c.fx ≠ 0) (hy : c.fy ≠ 0) (m t φ : ℝ) (hm : 0 < m) (h0 : 0 ≤ t) (hpi : t < Real.pi) :
    fisheyeStereographic (offAxis ⟨m * Real.sin t * Real.cos φ, m * Real.sin t * Real.sin φ, m * Real.cos t⟩) =
    offAxis (unpinhole c (stereographic c ⟨m * Real.sin t * Real.cos φ, m * Real.sin t * Real.sin φ, m * Real.cos t⟩).q).v := by
  have hs : 0 ≤ Real.sin t := Real.sin_nonneg_of_nonneg_of_le_pi h0 hpi.le
  have hmag : (m * Real.sin t * Real.cos φ) ^ 2 + (m * Real.sin t * Real.sin φ) ^ 2 + (m * Real.cos t) ^ 2 = m ^ 2 := by
    linear_combination m ^ 2 * Real.sin t ^ 2 * Real.sin_sq_add_cos_sq φ + m ^ 2 * Real.sin_sq_add_cos_sq t
  have hc : 0 < 1 + Real.cos t := by
    have := Real.cos_lt_cos_of_nonneg_of_le_pi h0 le_rfl hpi
    rw [Real.cos_pi] at this; linarith
  have hoff : offAxis ⟨m * Real.sin t * Real.cos φ, m * Real.sin t * Real.sin φ, m * Real.cos t⟩ = 180 / Real.pi * t := by
    unfold offAxis
    rw [hmag, Real.sqrt_sq hm.le, mul_div_cancel_left₀ _ hm.ne', Real.arccos_cos h0 hpi.le]
  rw [hoff]
  unfold fisheyeStereographic
  rw [deg_rad]
  rw [← angle_meaning _ (by intro he; have := congrArg P3.z he; simp [unpinhole] at this), thDeg_front _ (by simp [unpinhole])]
  have hmag2 : Real.sqrt ((m * Real.sin t * Real.cos φ) * (m * Real.sin t * Real.cos φ) + (m * Real.sin t * Real.sin φ) * (m * Real.sin t * Real.sin φ) + (m * Real.cos t) * (m * Real.cos t)) = m := by
    rw [show (m * Real.sin t * Real.cos φ) * (m * Real.sin t * Real.cos φ) + (m * Real.sin t * Real.sin φ) * (m * Real.sin t * Real.sin φ) + (m * Real.cos t) * (m * Real.cos t) = m ^ 2 by rw [← hmag]; ring]
    exact Real.sqrt_sq hm.le
  have hhalf : Real.tan (t / 2) = Real.sin t / (1 + Real.cos t) := by
    have hch : Real.cos (t / 2) ≠ 0 := (Real.cos_pos_of_mem_Ioo ⟨by linarith [Real.pi_pos], by linarith⟩).ne'
    have e1 : Real.sin t = 2 * Real.sin (t / 2) * Real.cos (t / 2) := by rw [← Real.sin_two_mul]; congr 1; ring
    have e2 : 1 + Real.cos t = 2 * Real.cos (t / 2) ^ 2 := by
      have := Real.cos_two_mul (t / 2)
      rw [show 2 * (t / 2) = t by ring] at this; linarith
    rw [Real.tan_eq_sin_div_cos, e1, e2]; field_simp
  congr 2
  simp only [unpinhole, stereographic, hmag2, div_one]
  have hk : m + m * Real.cos t ≠ 0 := by nlinarith
  have ex : (m * Real.sin t * Real.cos φ * (2.0 / (m + m * Real.cos t)) * c.fx + c.cx - c.cx) / c.fx = 2 * (Real.sin t / (1 + Real.cos t)) * Real.cos φ := by
    field_simp; norm_num; ring
  have ey : (m * Real.sin t * Real.sin φ * (2.0 / (m + m * Real.cos t)) * c.fy + c.cy - c.cy) / c.fy = 2 * (Real.sin t / (1 + Real.cos t)) * Real.sin φ := by
    field_simp; norm_num; ring
  rw [ex, ey, hhalf]
  rw [show 2 * (Real.sin t / (1 + Real.cos t)) * Real.cos φ * (2 * (Real.sin t / (1 + Real.cos t)) * Real.cos φ) + 2 * (Real.sin t / (1 + Real.cos t)) * Real.sin φ * (2 * (Real.sin t / (1 + Real.cos t)) * Real.sin φ)
      = (2 * (Real.sin t / (1 + Real.cos t))) ^ 2 by linear_combination 4 * (Real.sin t / (1 + Real.cos t)) ^ 2 * Real.sin_sq_add_cos_sq φ]
  rw [Real.sqrt_sq (by positivity)]

/-! ### the empirical curves -/

/-- C129: the sampled curves, for all other models. There are 8, toward the corners and the centers of the edges. Each point shown is the pair (angle according to the model, angle according to a pinhole) of
one pixel on the line from the center to the target, and all the 100 pixels that can be unprojected are shown. The first is at the center, the last at the target -/
theorem sampled_meaning (c : Camera) (R : Radial) (h : radial c = some R) (ho : c.opencv = none) :
    R.equation = none ∧ R.sampled.length = 8 ∧
    (∀ (i : Nat) (t : P2), (targets c)[i]? = some t → ∃ l, R.sampled[i]? = some l ∧
      ∀ p : ℝ × ℝ, p ∈ l ↔ ∃ (j : Nat) (v : P3), j ≤ 99 ∧
        c.unproject ⟨c.core.cx + j / 99 * (t.x - c.core.cx), c.core.cy + j / 99 * (t.y - c.core.cy)⟩ = some v ∧
        p = (thDeg v, thDeg ⟨j / 99 * (t.x - c.core.cx) / c.core.fx, j / 99 * (t.y - c.core.cy) / c.core.fy, 1⟩)) := by
  unfold radial at h
  split at h
  · cases h
  split at h
  · cases h
  rename_i th ths _
  simp only [Option.some.injEq] at h
  subst h
  refine ⟨by simp [ho], by simp [ho, targets], fun i t ht => ⟨empirical c t, by simp [ho, ht], fun p => ?_⟩⟩
  have hal : ∀ j : Nat, along ⟨c.core.cx, c.core.cy⟩ t 100 j = ⟨c.core.cx + j / 99 * (t.x - c.core.cx), c.core.cy + j / 99 * (t.y - c.core.cy)⟩ := by
    intro j
    simp only [along, Project.linspace]
    norm_num
    constructor <;> ring
  unfold empirical
  simp only [List.mem_filterMap, List.mem_range, Option.map_eq_some_iff]
  constructor
  · rintro ⟨j, hj, v, hv, rfl⟩
    rw [hal] at hv ⊢
    exact ⟨j, v, by omega, hv, by simp [thPinhole, unpinhole]⟩
  · rintro ⟨j, v, hj, hv, rfl⟩
    refine ⟨j, by omega, v, by rw [hal]; exact hv, ?_⟩
    rw [hal]; simp [thPinhole, unpinhole]

/-- C129: the two ways agree: if the model was an OpenCV one with radial distortion only, and unprojecting inverts projecting, the sampled points would be on the equation's curve -/
theorem sampled_on_curve (c : Camera) (N : Nat) (hN : N = 4 ∨ N = 5 ∨ N = 8 ∨ N = 12) (hk : RadialOnly N c.dist) (hx : c.core.fx ≠ 0) (hy : c.core.fy ≠ 0)
    (hu : ∀ q v, c.unproject q = some v → ocvQ c.core (padK N c.dist) v = q ∧ 0 < v.z ∧ 0 ≤ factor N c.dist v) (t : P2) :
    ∀ p ∈ empirical c t, p.2 = opencvCurve N c.dist p.1 := by
  intro p hp
  unfold empirical at hp
  simp only [List.mem_filterMap, List.mem_range, Option.map_eq_some_iff] at hp
  obtain ⟨j, hj, v, hv, rfl⟩ := hp
  obtain ⟨h1, h2, h3⟩ := hu _ _ hv
  have hv0 : v ≠ ⟨0, 0, 0⟩ := by intro he; rw [he] at h2; exact lt_irrefl _ h2
  have := (opencv_curve N hN c.dist hk c.core hx hy v h2).1 h3
  rw [h1, ← angle_meaning v hv0, ← angle_meaning _ (by intro he; have := congrArg P3.z he; simp [unpinhole] at this)] at this
  exact this.symm

/-- a camera without distortion -/
noncomputable def cam0 : Camera := ⟨true, ⟨1000, 1000, 500, 400⟩, none, fun _ => 0, 1001, 801, fun q => some ⟨(q.x - 500) / 1000, (q.y - 400) / 1000, 1⟩, fun v => ⟨v.x / v.z * 1000 + 500, v.y / v.z * 1000 + 400⟩⟩

example : RadialOnly 4 cam0.dist ∧ ∀ q v, cam0.unproject q = some v → ocvQ cam0.core (padK 4 cam0.dist) v = q ∧ 0 < v.z ∧ 0 ≤ factor 4 cam0.dist v := by
  refine ⟨⟨rfl, rfl, by norm_num⟩, fun q v h => ?_⟩
  simp only [cam0, Option.some.injEq] at h
  subst h
  refine ⟨?_, by norm_num, by norm_num [factor, ocv, padK, cam0]⟩
  ext <;> norm_num [ocvQ, ocv, padK, cam0] <;> ring

theorem le_maxOf (l : List ℝ) : ∀ a : ℝ, a ≤ maxOf a l ∧ ∀ b ∈ l, b ≤ maxOf a l := by
  induction l with
  | nil => intro a; simp [maxOf]
  | cons x l ih =>
    intro a
    obtain ⟨h1, h2⟩ := ih (max a x)
    have e : maxOf a (x :: l) = maxOf (max a x) l := rfl
    rw [e]
    refine ⟨le_trans (le_max_left _ _) h1, fun b hb => ?_⟩
    rcases List.mem_cons.1 hb with rfl | hb
    · exact le_trans (le_max_right _ _) h1
    · exact h2 b hb

theorem thDeg_nonneg (v : P3) : 0 ≤ thDeg v := by
  unfold thDeg atan2
  have : 0 ≤ Complex.arg ⟨v.z, Real.sqrt (v.x * v.x + v.y * v.y)⟩ := Complex.arg_nonneg_iff.2 (Real.sqrt_nonneg _)
  have := Real.pi_pos
  positivity

/-- C129: the vertical lines. Red: the angles seen at the left and right edges, in the row of the center. Green: at the top and the bottom, in its column. Blue: at the 4 corners. Only the pixels that can't be
unprojected are missing, and all the lines are inside the plotted range -/
theorem markers_meaning (c : Camera) (R : Radial) (h : radial c = some R) (a : ℝ) :
    (a ∈ R.red ↔ ∃ x v, (x = 0 ∨ x = (c.W : ℝ) - 1) ∧ c.unproject ⟨x, c.core.cy⟩ = some v ∧ a = thDeg v) ∧
    (a ∈ R.green ↔ ∃ y v, (y = 0 ∨ y = (c.H : ℝ) - 1) ∧ c.unproject ⟨c.core.cx, y⟩ = some v ∧ a = thDeg v) ∧
    (a ∈ R.blue ↔ ∃ x y v, (x = 0 ∨ x = (c.W : ℝ) - 1) ∧ (y = 0 ∨ y = (c.H : ℝ) - 1) ∧ c.unproject ⟨x, y⟩ = some v ∧ a = thDeg v) ∧
    (a ∈ R.red ∨ a ∈ R.green ∨ a ∈ R.blue → 0 ≤ a ∧ a ≤ R.xmax) ∧
    ∃ b, (b ∈ R.red ∨ b ∈ R.green ∨ b ∈ R.blue) ∧ R.xmax = 1.01 * b := by
  unfold radial at h
  split at h
  · cases h
  split at h
  · cases h
  rename_i th ths he
  simp only [Option.some.injEq] at h
  subst h
  have hmem : ∀ b, (b ∈ markers c (xEdges c) ∨ b ∈ markers c (yEdges c) ∨ b ∈ markers c (corners c)) ↔ b ∈ th :: ths := by
    intro b
    rw [← he]
    simp only [List.mem_append]
    tauto
  refine ⟨?_, ?_, ?_, ?_, ?_⟩
  · simp only [markers, xEdges, List.mem_filterMap, List.mem_cons, List.not_mem_nil, or_false, Option.map_eq_some_iff]
    constructor
    · rintro ⟨q, hq, v, hv, rfl⟩
      rcases hq with rfl | rfl
      · exact ⟨0, v, Or.inl rfl, hv, rfl⟩
      · exact ⟨_, v, Or.inr rfl, hv, rfl⟩
    · rintro ⟨x, v, hx, hv, rfl⟩
      rcases hx with rfl | rfl
      · exact ⟨_, Or.inl rfl, v, hv, rfl⟩
      · exact ⟨_, Or.inr rfl, v, hv, rfl⟩
  · simp only [markers, yEdges, List.mem_filterMap, List.mem_cons, List.not_mem_nil, or_false, Option.map_eq_some_iff]
    constructor
    · rintro ⟨q, hq, v, hv, rfl⟩
      rcases hq with rfl | rfl
      · exact ⟨0, v, Or.inl rfl, hv, rfl⟩
      · exact ⟨_, v, Or.inr rfl, hv, rfl⟩
    · rintro ⟨x, v, hx, hv, rfl⟩
      rcases hx with rfl | rfl
      · exact ⟨_, Or.inl rfl, v, hv, rfl⟩
      · exact ⟨_, Or.inr rfl, v, hv, rfl⟩
  · simp only [markers, corners, List.mem_filterMap, List.mem_cons, List.not_mem_nil, or_false, Option.map_eq_some_iff]
    constructor
    · rintro ⟨q, hq, v, hv, rfl⟩
      rcases hq with rfl | rfl | rfl | rfl
      · exact ⟨0, 0, v, Or.inl rfl, Or.inl rfl, hv, rfl⟩
      · exact ⟨0, _, v, Or.inl rfl, Or.inr rfl, hv, rfl⟩
      · exact ⟨_, 0, v, Or.inr rfl, Or.inl rfl, hv, rfl⟩
      · exact ⟨_, _, v, Or.inr rfl, Or.inr rfl, hv, rfl⟩
    · rintro ⟨x, y, v, hx, hy, hv, rfl⟩
      rcases hx with rfl | rfl <;> rcases hy with rfl | rfl
      · exact ⟨_, Or.inl rfl, v, hv, rfl⟩
      · exact ⟨_, Or.inr (Or.inl rfl), v, hv, rfl⟩
      · exact ⟨_, Or.inr (Or.inr (Or.inl rfl)), v, hv, rfl⟩
      · exact ⟨_, Or.inr (Or.inr (Or.inr rfl)), v, hv, rfl⟩
  · intro ha
    have h0 : ∀ b, (b ∈ markers c (xEdges c) ∨ b ∈ markers c (yEdges c) ∨ b ∈ markers c (corners c)) → 0 ≤ b := by
      intro b hb
      have : ∃ q : List P2, b ∈ markers c q := by rcases hb with hb | hb | hb <;> exact ⟨_, hb⟩
      obtain ⟨q, hq⟩ := this
      simp only [markers, List.mem_filterMap, Option.map_eq_some_iff] at hq
      obtain ⟨_, _, v, _, rfl⟩ := hq
      exact thDeg_nonneg v
    have ha0 := h0 a ha
    have hle : a ≤ maxOf th ths := by
      rcases List.mem_cons.1 ((hmem a).1 ha) with rfl | hb
      · exact (le_maxOf ths _).1
      · exact (le_maxOf ths th).2 a hb
    exact ⟨ha0, by norm_num; linarith⟩
  · have hin : ∀ (l : List ℝ) (a : ℝ), maxOf a l ∈ a :: l := by
      intro l
      induction l with
      | nil => intro a; simp [maxOf]
      | cons x l ih =>
        intro a
        have e : maxOf a (x :: l) = maxOf (max a x) l := rfl
        rw [e]
        rcases List.mem_cons.1 (ih (max a x)) with h1 | h1
        · rw [h1]
          rcases max_choice a x with h2 | h2 <;> rw [h2] <;> simp
        · simp [h1]
    exact ⟨maxOf th ths, (hmem _).2 (hin ths th), mul_comm _ _⟩

example : (radial cam0).isSome = true := by
  simp [radial, cam0, markers, corners, yEdges, xEdges]

/-- C129: what's refused: models without a focal length and a center, and models where none of the corners and the centers of the edges can be unprojected -/
theorem radial_refused (c : Camera) :
    radial c = none ↔ c.hasCore = false ∨
      ∀ x y, ((x = 0 ∨ x = (c.W : ℝ) - 1) ∧ (y = 0 ∨ y = (c.H : ℝ) - 1)) ∨ ((x = 0 ∨ x = (c.W : ℝ) - 1) ∧ y = c.core.cy) ∨ (x = c.core.cx ∧ (y = 0 ∨ y = (c.H : ℝ) - 1)) →
        c.unproject ⟨x, y⟩ = none := by
  have hnil : (markers c (corners c) ++ markers c (yEdges c) ++ markers c (xEdges c) = []) ↔
      ∀ x y, ((x = 0 ∨ x = (c.W : ℝ) - 1) ∧ (y = 0 ∨ y = (c.H : ℝ) - 1)) ∨ ((x = 0 ∨ x = (c.W : ℝ) - 1) ∧ y = c.core.cy) ∨ (x = c.core.cx ∧ (y = 0 ∨ y = (c.H : ℝ) - 1)) →
        c.unproject ⟨x, y⟩ = none := by
    simp only [List.append_eq_nil_iff, markers, List.filterMap_eq_nil_iff, corners, yEdges, xEdges, List.mem_cons, List.not_mem_nil, or_false, forall_eq_or_imp, forall_eq, Option.map_eq_none_iff]
    constructor
    · rintro ⟨⟨⟨a1, a2, a3, a4⟩, b1, b2⟩, d1, d2⟩ x y h
      rcases h with ⟨rfl | rfl, rfl | rfl⟩ | ⟨rfl | rfl, rfl⟩ | ⟨rfl, rfl | rfl⟩ <;> assumption
    · intro h
      refine ⟨⟨⟨h _ _ ?_, h _ _ ?_, h _ _ ?_, h _ _ ?_⟩, h _ _ ?_, h _ _ ?_⟩, h _ _ ?_, h _ _ ?_⟩ <;> simp
  rw [← hnil]
  unfold radial
  cases hc : c.hasCore
  · simp
  · simp only [Bool.not_true, Bool.false_eq_true, if_false, Bool.true_eq_false, false_or]
    split
    · rename_i h; simp [h]
    · rename_i h; simp [h]

/-- C129: the curve that's plotted for an OpenCV model is the equation, with no samples -/
theorem opencv_plot (c : Camera) (R : Radial) (h : radial c = some R) (N : Nat) (ho : c.opencv = some N) : R.equation = some (opencvCurve N c.dist) ∧ R.sampled = [] := by
  unfold radial at h
  split at h
  · cases h
  split at h
  · cases h
  simp only [Option.some.injEq] at h
  subst h
  simp [ho]

example : ∃ R, radial { cam0 with opencv := some 8 } = some R := by
  simp [radial, cam0, markers, corners, yEdges, xEdges]

/-! ### the heat map, the vectors -/

/-- spec: the direction that a pinhole with the core of the model sees at `q` -/
theorem pinhole_back (k : Core) (hx : k.fx ≠ 0) (hy : k.fy ≠ 0) (q : P2) : (pinhole k ⟨(q.x - k.cx) / k.fx, (q.y - k.cy) / k.fy, 1⟩).q = q := by
  ext <;> simp [pinhole] <;> field_simp <;> ring

theorem flat_length {α : Type} (f : Nat → Nat → α) (gw : Nat) : ∀ gh, ((List.range gh).flatMap fun i => (List.range gw).map fun j => f i j).length = gh * gw := by
  intro gh
  induction gh with
  | zero => simp
  | succ n ih => rw [List.range_succ, List.flatMap_append, List.length_append, ih]; simp; ring

theorem flat_get {α : Type} (f : Nat → Nat → α) (gw : Nat) : ∀ gh i j, i < gh → j < gw → ((List.range gh).flatMap fun i => (List.range gw).map fun j => f i j)[i * gw + j]? = some (f i j) := by
  intro gh
  induction gh with
  | zero => intro i j h; omega
  | succ n ih =>
    intro i j hi hj
    rw [List.range_succ, List.flatMap_append]
    have hl := flat_length f gw n
    rcases Nat.lt_succ_iff_lt_or_eq.1 hi with hi | rfl
    · have : i * gw + j < n * gw := by nlinarith
      rw [List.getElem?_append_left (by omega)]
      exact ih i j hi hj
    · rw [List.getElem?_append_right (by omega), hl]
      simp [hj]

theorem grid_pixel (c : Camera) (gw gh i j : Nat) (hw : 2 ≤ gw) (hh : 2 ≤ gh) : gridPixel c gw gh i j = ⟨j * ((c.W - 1) / (gw - 1)), i * ((c.H - 1) / (gh - 1))⟩ := by
  unfold gridPixel Project.linspace
  rw [if_neg (show ¬ gw ≤ 1 by omega), if_neg (show ¬ gh ≤ 1 by omega)]
  simp

/-- C129: the heat map. Each cell of the requested grid is drawn at a pixel q of the imager, cells are spread evenly from corner to corner, and there is a direction that a pinhole with the core of the model projects to q: the
cell's value is the distance to where the model projects that direction -/
theorem heat_meaning (c : Camera) (gw gh : Nat) (l : List (P2 × ℝ)) (h : heatMap c gw (some gh) = some l) (hx : c.core.fx ≠ 0) (hy : c.core.fy ≠ 0) :
    l.length = gh * gw ∧ ∀ i j, i < gh → j < gw → ∃ (q : P2) (v : P3) (d : ℝ), l[i * gw + j]? = some (q, d) ∧
      q = ⟨j * ((c.W - 1) / (gw - 1)), i * ((c.H - 1) / (gh - 1))⟩ ∧ v.z = 1 ∧ (pinhole c.core v).q = q ∧
      d = Real.sqrt (((c.project v).x - q.x) ^ 2 + ((c.project v).y - q.y) ^ 2) := by
  simp only [heatMap, ModelDiff.gridHeight, Option.bind_some, Region.gridUsing] at h
  split at h
  · cases h
  split at h
  · simp at h
  rename_i hg
  simp only [Option.map_some, Option.some.injEq] at h
  subst h
  refine ⟨flat_length _ _ _, fun i j hi hj => ?_⟩
  have hw : 2 ≤ gw := by omega
  have hh : 2 ≤ gh := by omega
  rw [flat_get _ _ _ i j hi hj]
  refine ⟨_, ⟨((gridPixel c gw gh i j).x - c.core.cx) / c.core.fx, ((gridPixel c gw gh i j).y - c.core.cy) / c.core.fy, 1⟩, _, rfl, ?_, rfl, ?_, ?_⟩
  · simp
  · rw [pinhole_back c.core hx hy, grid_pixel c gw gh i j hw hh]
  · simp only [heatCell, delta, grid_pixel c gw gh i j hw hh]

example : (heatMap cam0 60 (some 40)).isSome = true := by simp [heatMap, cam0, ModelDiff.gridHeight, Region.gridUsing]

/-- C129: what has no heat map: no core, or one column, or one row. (The number of rows can't be chosen if the imager has no width) -/
theorem heat_refused (c : Camera) (gw : Nat) (gh : Option Nat) : heatMap c gw gh = none ↔
    (gh = none ∧ c.W = 0) ∨ c.hasCore = false ∨ gw = 1 ∨ ModelDiff.gridHeight gw gh c.W c.H = some 1 := by
  unfold heatMap
  have hg : ModelDiff.gridHeight gw gh c.W c.H = none ↔ gh = none ∧ c.W = 0 := by
    unfold ModelDiff.gridHeight
    cases gh <;> simp
  rw [← hg]
  cases hn : ModelDiff.gridHeight gw gh c.W c.H with
  | none => simp
  | some n =>
    cases hc : c.hasCore
    · simp
    · by_cases h1 : gw = 1 ∨ n = 1
      · simp [Region.gridUsing, ModelDiff.gridHeight, h1]
      · simp [Region.gridUsing, ModelDiff.gridHeight, h1]

example : heatMap cam0 1 (some 40) = none := (heat_refused _ _ _).2 (Or.inr (Or.inr (Or.inl rfl)))

/-- C129: a pinhole is not off at all: its heat map is 0 everywhere, its vectors have no length -/
theorem pinhole_zero (c : Camera) (hp : ∀ v, c.project v = (pinhole c.core v).q) (hx : c.core.fx ≠ 0) (hy : c.core.fy ≠ 0) :
    (∀ gw gh l, heatMap c gw (some gh) = some l → ∀ a ∈ l, a.2 = 0) ∧
    (∀ s gw gh l, vectors c s gw gh = some l → ∀ a ∈ l, a.2 = ⟨0, 0⟩) := by
  have hd : ∀ q, delta c q = ⟨0, 0⟩ := by
    intro q
    unfold delta
    simp only [hp, pinhole_back c.core hx hy, sub_self]
  constructor
  · intro gw gh l h a ha
    simp only [heatMap, ModelDiff.gridHeight, Option.bind_some] at h
    split at h
    · cases h
    obtain ⟨f, _, rfl⟩ := Option.map_eq_some_iff.1 h
    simp only [List.mem_flatMap, List.mem_map, List.mem_range] at ha
    obtain ⟨i, _, j, _, rfl⟩ := ha
    simp [heatCell, hd]
  · intro s gw gh l h a ha
    obtain ⟨n, _, h⟩ := Option.bind_eq_some_iff.1 h
    split at h
    · cases h
    simp only [Option.some.injEq] at h
    subst h
    simp only [List.mem_flatMap, List.mem_map, List.mem_range] at ha
    obtain ⟨i, _, j, _, rfl⟩ := ha
    simp [vectorAt, hd]

example : ∀ v, cam0.project v = (pinhole cam0.core v).q := by
  intro v
  ext <;> simp [cam0, pinhole] <;> ring

/-- C129, partial: the vector field. Each vector starts at a pixel q of the grid, and points to where the model projects what a pinhole projects to q; at scale 1 it ends there. What's missing: the outline of the imager, see
`outline_wrong` -/
theorem vectors_partial (c : Camera) (s : ℝ) (gw gh : Nat) (l : List (P2 × P2)) (h : vectors c s gw (some gh) = some l) (hx : c.core.fx ≠ 0) (hy : c.core.fy ≠ 0) :
    l.length = gh * gw ∧ ∀ i j, i < gh → j < gw → ∃ (q d : P2) (v : P3), l[i * gw + j]? = some (q, d) ∧
      (2 ≤ gw → 2 ≤ gh → q = ⟨j * ((c.W - 1) / (gw - 1)), i * ((c.H - 1) / (gh - 1))⟩) ∧ v.z = 1 ∧ (pinhole c.core v).q = q ∧
      d = ⟨s * ((c.project v).x - q.x), s * ((c.project v).y - q.y)⟩ ∧ (s = 1 → (⟨q.x + d.x, q.y + d.y⟩ : P2) = c.project v) := by
  simp only [vectors, ModelDiff.gridHeight, Option.bind_some] at h
  split at h
  · cases h
  simp only [Option.some.injEq] at h
  subst h
  refine ⟨flat_length _ _ _, fun i j hi hj => ?_⟩
  rw [flat_get _ _ _ i j hi hj]
  refine ⟨_, _, ⟨((gridPixel c gw gh i j).x - c.core.cx) / c.core.fx, ((gridPixel c gw gh i j).y - c.core.cy) / c.core.fy, 1⟩, rfl, ?_, rfl, ?_, ?_, ?_⟩
  · intro hw hh; exact grid_pixel c gw gh i j hw hh
  · rw [pinhole_back c.core hx hy]
  · simp only [delta]; ext <;> simp <;> ring
  · intro hs; subst hs; simp [delta]

example : (vectors cam0 10 60 none).isSome = true := by simp [vectors, cam0, ModelDiff.gridHeight]

/-- C129, negation: plot options are said to be passed verbatim, and the code makes an outline of the imager. In a vector field neither happens: whatever is given as `_set` is replaced by the outline, and this is then removed -/
theorem outline_wrong (c : Camera) (o : Opts) : vectorOpts c o "_set" = none ∧ (∀ k, (∃ l, vectorOpts c o k = some l ∧ outline c.W c.H ∈ l) → k ≠ "_set") ∧
    (∀ k, k ≠ "_set" → k ≠ "_xrange" → k ≠ "_yrange" → k ≠ "square" → vectorOpts c o k = o k) := by
  have e : vectorOpts c o "_set" = none := by simp [vectorOpts, setOpt]
  refine ⟨e, ?_, ?_⟩
  · rintro k ⟨l, hl, _⟩ rfl
    rw [e] at hl; cases hl
  · intro k h1 h2 h3 h4
    simp [vectorOpts, setOpt, h1, h2, h3, h4]

example : vectorOpts cam0 (fun k => if k = "_set" then some ["grid"] else none) "_set" = none := (outline_wrong _ _).1

end Mrcal.OffPinhole
