import Verif.Model.Stereo
import Verif.Props.CameraProps
import Mathlib.Tactic.Linarith
import Mathlib.Tactic.FieldSimp
import Mathlib.Tactic.LinearCombination
import Mathlib.Analysis.Real.Pi.Bounds
/-
C36: ranges from disparities. Rectified camera1 is at (baseline,0,0) in the coordinate system of rectified camera0.
-/
namespace Mrcal.Stereo
open Mrcal.Cam

/-- **Specification**: a point in the rectified camera0 coordinates, seen from rectified camera1 -/
def fromCam1 (b : ℝ) (p : P3) : P3 := ⟨p.x - b, p.y, p.z⟩

theorem arcsin_recip (x n : ℝ) : Real.arcsin (x * Real.sqrt (1 / n)) = Real.arcsin (x / Real.sqrt n) := by
  rw [one_div, Real.sqrt_inv, div_eq_mul_inv]

theorem az_trig (x r2 : ℝ) (hr : 0 < r2) :
    Real.sin (Real.arcsin (x / Real.sqrt (x * x + r2))) = x / Real.sqrt (x * x + r2) ∧
    Real.cos (Real.arcsin (x / Real.sqrt (x * x + r2))) = Real.sqrt r2 / Real.sqrt (x * x + r2) := by
  have hn : 0 < x * x + r2 := by nlinarith [mul_self_nonneg x]
  have hs : 0 < Real.sqrt (x * x + r2) := Real.sqrt_pos.mpr hn
  have hsq : Real.sqrt (x * x + r2) * Real.sqrt (x * x + r2) = x * x + r2 := Real.mul_self_sqrt hn.le
  have hb : |x| ≤ Real.sqrt (x * x + r2) := by
    rw [← Real.sqrt_mul_self (abs_nonneg x), abs_mul_abs_self]
    exact Real.sqrt_le_sqrt (by linarith)
  obtain ⟨h1, h2⟩ := abs_le.mp hb
  constructor
  · exact Real.sin_arcsin (by rw [le_div_iff₀ hs]; linarith) (by rw [div_le_iff₀ hs]; linarith)
  · rw [Real.cos_arcsin, ← Real.sqrt_div hr.le]
    congr 1
    rw [div_pow, sq, sq, hsq]
    field_simp
    ring

/-- the azimuths of a point in the two LATLON cameras -/
theorem latlon_az (k : Core) (hfx : k.fx ≠ 0) (p : P3) :
    ((latlon k p).q.x - k.cx) / k.fx = Real.arcsin (p.x / Real.sqrt (p.x * p.x + (p.y * p.y + p.z * p.z))) := by
  have e : p.x * p.x + (p.y * p.y + p.z * p.z) = p.x * p.x + p.y * p.y + p.z * p.z := by ring
  simp only [latlon, arcsin_recip, e]
  field_simp
  ring

theorem rho_pos (p : P3) (h : p.y ≠ 0 ∨ p.z ≠ 0) : 0 < p.y * p.y + p.z * p.z := by
  rcases h with h | h
  · nlinarith [mul_self_pos.mpr h, mul_self_nonneg p.z]
  · nlinarith [mul_self_pos.mpr h, mul_self_nonneg p.y]

/-- the angular disparity of LATLON cameras -/
theorem latlon_sin (k : Core) (hfx : k.fx ≠ 0) (b : ℝ) (p : P3) (h : p.y ≠ 0 ∨ p.z ≠ 0) :
    let az0 := ((latlon k p).q.x - k.cx) / k.fx
    let az1 := ((latlon k (fromCam1 b p)).q.x - k.cx) / k.fx
    Real.sin (az0 - az1) = b * Real.sqrt (p.y * p.y + p.z * p.z) / (mag3 p * mag3 (fromCam1 b p)) ∧
    Real.cos az1 = Real.sqrt (p.y * p.y + p.z * p.z) / mag3 (fromCam1 b p) ∧ 0 < mag3 p ∧ 0 < mag3 (fromCam1 b p) := by
  intro az0 az1
  have hr := rho_pos p h
  have e0 : az0 = _ := latlon_az k hfx p
  have e1 : az1 = _ := latlon_az k hfx (fromCam1 b p)
  obtain ⟨s0, c0⟩ := az_trig p.x _ hr
  obtain ⟨s1, c1⟩ := az_trig (p.x - b) _ hr
  have m0 : mag3 p = Real.sqrt (p.x * p.x + (p.y * p.y + p.z * p.z)) := by unfold mag3; congr 1; ring
  have m1 : mag3 (fromCam1 b p) = Real.sqrt ((p.x - b) * (p.x - b) + (p.y * p.y + p.z * p.z)) := by
    unfold mag3 fromCam1; congr 1; simp only []; ring
  have p0 : 0 < mag3 p := by rw [m0]; exact Real.sqrt_pos.mpr (by nlinarith [mul_self_nonneg p.x])
  have p1 : 0 < mag3 (fromCam1 b p) := by rw [m1]; exact Real.sqrt_pos.mpr (by nlinarith [mul_self_nonneg (p.x - b)])
  rw [← m0] at s0 c0 e0
  simp only [fromCam1] at e1
  rw [← m1] at s1 c1 e1
  have n0 := p0.ne'
  have n1 := p1.ne'
  refine ⟨?_, ?_, p0, p1⟩
  · rw [Real.sin_sub, e0, e1, s0, c0, s1, c1]
    field_simp
    ring
  · rw [e1, c1]

/-- **C36**: LATLON: the range is the distance from camera0 to the point, for each point that isn't on the baseline -/
theorem range_latlon (k : Core) (hfx : k.fx ≠ 0) (b : ℝ) (hb : b ≠ 0) (p : P3) (h : p.y ≠ 0 ∨ p.z ≠ 0) :
    rangeOne .latlon k b ((latlon k p).q.x - (latlon k (fromCam1 b p)).q.x) (latlon k p).q = mag3 p := by
  obtain ⟨hs, hc, p0, p1⟩ := latlon_sin k hfx b p h
  have hr := Real.sqrt_pos.mpr (rho_pos p h)
  have e : ((latlon k p).q.x - (latlon k (fromCam1 b p)).q.x) / k.fx
      = ((latlon k p).q.x - k.cx) / k.fx - ((latlon k (fromCam1 b p)).q.x - k.cx) / k.fx := by ring
  unfold rangeOne
  simp only [if_true]
  rw [if_neg hfx, e, sub_sub_cancel, hs, hc]
  have n0 := p0.ne'
  have n1 := p1.ne'
  have nr := hr.ne'
  rw [if_neg (by positivity)]
  generalize Real.sqrt (p.y * p.y + p.z * p.z) = rho at *
  field_simp

/-- **C36**: LATLON: the disparity is positive -/
theorem disparity_latlon (k : Core) (hfx : 0 < k.fx) (b : ℝ) (hb : 0 < b) (p : P3) (h : p.y ≠ 0 ∨ p.z ≠ 0) :
    0 < (latlon k p).q.x - (latlon k (fromCam1 b p)).q.x ∧ (latlon k p).q.y = (latlon k (fromCam1 b p)).q.y := by
  obtain ⟨hs, -, p0, p1⟩ := latlon_sin k hfx.ne' b p h
  have hr := Real.sqrt_pos.mpr (rho_pos p h)
  refine ⟨?_, rfl⟩
  have hpos : 0 < Real.sin (((latlon k p).q.x - k.cx) / k.fx - ((latlon k (fromCam1 b p)).q.x - k.cx) / k.fx) := by rw [hs]; positivity
  by_contra hn
  have b0 := Real.arcsin_mem_Icc (p.x / Real.sqrt (p.x * p.x + (p.y * p.y + p.z * p.z)))
  have b1 := Real.arcsin_mem_Icc ((fromCam1 b p).x / Real.sqrt ((fromCam1 b p).x * (fromCam1 b p).x + ((fromCam1 b p).y * (fromCam1 b p).y + (fromCam1 b p).z * (fromCam1 b p).z)))
  rw [← latlon_az k hfx.ne'] at b0 b1
  have hle : ((latlon k p).q.x - k.cx) / k.fx - ((latlon k (fromCam1 b p)).q.x - k.cx) / k.fx ≤ 0 := by
    have e : ((latlon k p).q.x - k.cx) / k.fx - ((latlon k (fromCam1 b p)).q.x - k.cx) / k.fx
      = ((latlon k p).q.x - (latlon k (fromCam1 b p)).q.x) / k.fx := by ring
    rw [e]
    exact div_nonpos_of_nonpos_of_nonneg (not_lt.mp hn) hfx.le
  have := Real.sin_nonpos_of_nonpos_of_neg_pi_le hle (by linarith [b0.1, b1.2])
  linarith

/-- **C36**: PINHOLE: the range is the distance from camera0 to the point, for each point in front of the cameras -/
theorem range_pinhole (k : Core) (hfx : k.fx ≠ 0) (hfy : k.fy ≠ 0) (b : ℝ) (hb : b ≠ 0) (p : P3) (hz : 0 < p.z) :
    rangeOne .pinhole k b ((pinhole k p).q.x - (pinhole k (fromCam1 b p)).q.x) (pinhole k p).q = mag3 p := by
  have nz := hz.ne'
  have e0 : ((pinhole k p).q.x - k.cx) / k.fx = p.x / p.z := by simp only [pinhole]; field_simp; ring
  have e1 : ((pinhole k p).q.y - k.cy) / k.fy = p.y / p.z := by simp only [pinhole]; field_simp; ring
  have e2 : ((pinhole k p).q.x - (pinhole k (fromCam1 b p)).q.x) / k.fx = b / p.z := by
    simp only [pinhole, fromCam1]; field_simp; ring
  unfold rangeOne
  simp only [e0, e1, e2]
  rw [if_neg (by decide), if_neg (by tauto), if_neg (div_ne_zero hb nz)]
  have hm : 0 < mag3 p := by unfold mag3; exact Real.sqrt_pos.mpr (by nlinarith [mul_self_nonneg p.x, mul_self_nonneg p.y])
  have hq : p.y / p.z * (p.y / p.z) + 1 + p.x / p.z * (p.x / p.z) = (mag3 p / p.z) ^ 2 := by
    rw [div_pow, sq (mag3 p), mag3_sq]; field_simp; ring
  rw [hq, Real.sqrt_sq (by positivity)]
  have hsq := mag3_sq p
  have nm := hm.ne'
  field_simp
  rw [sq (mag3 p), hsq]
  ring

/-- **C36**: PINHOLE: the disparity is positive -/
theorem disparity_pinhole (k : Core) (hfx : 0 < k.fx) (b : ℝ) (hb : 0 < b) (p : P3) (hz : 0 < p.z) :
    0 < (pinhole k p).q.x - (pinhole k (fromCam1 b p)).q.x ∧ (pinhole k p).q.y = (pinhole k (fromCam1 b p)).q.y := by
  refine ⟨?_, rfl⟩
  have e2 : (pinhole k p).q.x - (pinhole k (fromCam1 b p)).q.x = b / p.z * k.fx := by
    simp only [pinhole, fromCam1]; ring
  rw [e2]
  positivity

example : (⟨3, 4, 12⟩ : P3).y ≠ 0 ∨ (⟨3, 4, 12⟩ : P3).z ≠ 0 := by norm_num
example : mag3 ⟨3, 4, 12⟩ = 13 := by
  unfold mag3; rw [show (3 : ℝ) * 3 + 4 * 4 + 12 * 12 = 13 ^ 2 by norm_num]; exact Real.sqrt_sq (by norm_num)

/-! ### the other way: from a pixel and a disparity -/

theorem latlon_scale (k : Core) (p : P3) (s : ℝ) (hs : 0 < s) : (latlon k ⟨s * p.x, s * p.y, s * p.z⟩).q = (latlon k p).q := by
  have e : s * p.x * (s * p.x) + s * p.y * (s * p.y) + s * p.z * (s * p.z) = s ^ 2 * (p.x * p.x + p.y * p.y + p.z * p.z) := by ring
  have a : atan2 (s * p.y) (s * p.z) = atan2 p.y p.z := by
    unfold atan2
    rw [show (⟨s * p.z, s * p.y⟩ : ℂ) = (s : ℂ) * ⟨p.z, p.y⟩ by apply Complex.ext <;> simp]
    exact Complex.arg_real_mul _ hs
  simp only [latlon, arcsin_recip, e, a]
  rw [Real.sqrt_mul (by positivity), Real.sqrt_sq hs.le, mul_div_mul_left _ _ hs.ne']

/-- **C36**: LATLON: place the point at the reported range along the ray of the pixel. Then camera1 sees it at the pixel shifted by the disparity, and the range
is positive -/
theorem unproject_latlon (k : Core) (hfx : 0 < k.fx) (hfy : k.fy ≠ 0) (b d : ℝ) (hb : 0 < b) (q : P2) (hd : 0 < d)
    (hlon : -Real.pi < (q.y - k.cy) / k.fy ∧ (q.y - k.cy) / k.fy ≤ Real.pi)
    (h0 : (q.x - k.cx) / k.fx < Real.pi / 2) (h1 : -(Real.pi / 2) < (q.x - d - k.cx) / k.fx) :
    let r := rangeOne .latlon k b d q
    let p := pyStereoUnproject (unlatlon k q).v r
    0 < r ∧ mag3 p = r ∧ (latlon k p).q = q ∧ (latlon k (fromCam1 b p)).q = ⟨q.x - d, q.y⟩ := by
  intro r p
  set az0 := (q.x - k.cx) / k.fx with haz0
  set az1 := (q.x - d - k.cx) / k.fx with haz1
  set el := (q.y - k.cy) / k.fy with hel
  have nfx := hfx.ne'
  have hdr : d / k.fx = az0 - az1 := by rw [haz0, haz1]; ring
  have hdp : 0 < az0 - az1 := by rw [← hdr]; positivity
  have hs : 0 < Real.sin (az0 - az1) := Real.sin_pos_of_pos_of_lt_pi hdp (by linarith)
  have hc1 : 0 < Real.cos az1 := Real.cos_pos_of_mem_Ioo ⟨h1, by linarith⟩
  have hc0 : 0 < Real.cos az0 := Real.cos_pos_of_mem_Ioo ⟨by linarith, h0⟩
  have hr : r = b * Real.cos az1 / Real.sin (az0 - az1) := by
    show rangeOne .latlon k b d q = _
    unfold rangeOne
    simp only [if_true]
    rw [if_neg nfx, hdr, if_neg hs.ne', ← haz0, sub_sub_cancel]
  have hv : (unlatlon k q).v = ⟨Real.sin az0, Real.cos az0 * Real.sin el, Real.cos az0 * Real.cos el⟩ := by
    have g1 : (q.x - k.cx) * (1 / k.fx) = az0 := by rw [haz0]; ring
    have g2 : (q.y - k.cy) * (1 / k.fy) = el := by rw [hel]; ring
    simp only [unlatlon, g1, g2]
  have hv1 : (unlatlon k ⟨q.x - d, q.y⟩).v = ⟨Real.sin az1, Real.cos az1 * Real.sin el, Real.cos az1 * Real.cos el⟩ := by
    have g1 : (q.x - d - k.cx) * (1 / k.fx) = az1 := by rw [haz1]; ring
    have g2 : (q.y - k.cy) * (1 / k.fy) = el := by rw [hel]; ring
    simp only [unlatlon, g1, g2]
  have hu := unlatlon_unit k q
  have rpos : 0 < r := by rw [hr]; positivity
  have hp : p = ⟨r * (unlatlon k q).v.x, r * (unlatlon k q).v.y, r * (unlatlon k q).v.z⟩ := by
    show pyStereoUnproject _ _ = _
    unfold pyStereoUnproject
    have : Real.sqrt ((unlatlon k q).v.x * (unlatlon k q).v.x + (unlatlon k q).v.y * (unlatlon k q).v.y + (unlatlon k q).v.z * (unlatlon k q).v.z) = 1 := hu
    simp only [this, div_one]
    ext <;> simp only [] <;> ring
  have q0 := latlon_roundtrip2 k nfx hfy q hlon ⟨by linarith, h0⟩
  have q1 := latlon_roundtrip2 k nfx hfy ⟨q.x - d, q.y⟩ hlon ⟨h1, by show az1 < _; linarith⟩
  refine ⟨rpos, ?_, ?_, ?_⟩
  · have h1 := mag3_sq (unlatlon k q).v
    rw [hu] at h1
    rw [hp]
    unfold mag3
    simp only []
    rw [show r * (unlatlon k q).v.x * (r * (unlatlon k q).v.x) + r * (unlatlon k q).v.y * (r * (unlatlon k q).v.y) + r * (unlatlon k q).v.z * (r * (unlatlon k q).v.z)
      = r ^ 2 by linear_combination -r ^ 2 * h1]
    exact Real.sqrt_sq rpos.le
  · rw [hp, latlon_scale k _ r rpos, q0]
  · have hr1 : 0 < b * Real.cos az0 / Real.sin (az0 - az1) := by positivity
    have e : fromCam1 b p = ⟨b * Real.cos az0 / Real.sin (az0 - az1) * (unlatlon k ⟨q.x - d, q.y⟩).v.x,
        b * Real.cos az0 / Real.sin (az0 - az1) * (unlatlon k ⟨q.x - d, q.y⟩).v.y,
        b * Real.cos az0 / Real.sin (az0 - az1) * (unlatlon k ⟨q.x - d, q.y⟩).v.z⟩ := by
      rw [hp, hv, hv1, hr]
      have ns := hs.ne'
      have hsub := Real.sin_sub az0 az1
      unfold fromCam1
      ext
      · simp only []
        field_simp
        linear_combination -hsub
      · simp only []
        field_simp
      · simp only []
        field_simp
    rw [e, latlon_scale k _ _ hr1, q1]

/-- **C36**: the same for PINHOLE -/
theorem unproject_pinhole (k : Core) (hfx : 0 < k.fx) (hfy : k.fy ≠ 0) (b d : ℝ) (hb : 0 < b) (q : P2) (hd : 0 < d) :
    let r := rangeOne .pinhole k b d q
    let p := pyStereoUnproject (unpinhole k q).v r
    0 < r ∧ mag3 p = r ∧ 0 < p.z ∧ (pinhole k p).q = q ∧ (pinhole k (fromCam1 b p)).q = ⟨q.x - d, q.y⟩ := by
  intro r p
  have nfx := hfx.ne'
  set x := (q.x - k.cx) / k.fx with hx
  set y := (q.y - k.cy) / k.fy with hy
  have hu : (unpinhole k q).v = ⟨x, y, 1⟩ := rfl
  have hw : 0 < y * y + 1 + x * x := by nlinarith [mul_self_nonneg x, mul_self_nonneg y]
  set m := Real.sqrt (y * y + 1 + x * x) with hm
  have mpos : 0 < m := Real.sqrt_pos.mpr hw
  have msq : m * m = y * y + 1 + x * x := Real.mul_self_sqrt hw.le
  have nm := mpos.ne'
  have hdp : 0 < d / k.fx := by positivity
  have nd := hd.ne'
  have hr : r = b * k.fx / d * m := by
    show rangeOne .pinhole k b d q = _
    unfold rangeOne
    simp only [← hx, ← hy, ← hm]
    rw [if_neg (by decide), if_neg (by tauto), if_neg hdp.ne']
    field_simp
    linear_combination -k.fx * msq
  have rpos : 0 < r := by rw [hr]; positivity
  have hp : p = ⟨b * k.fx / d * x, b * k.fx / d * y, b * k.fx / d⟩ := by
    show pyStereoUnproject _ _ = _
    unfold pyStereoUnproject
    rw [hu, hr]
    simp only []
    rw [show x * x + y * y + 1 * 1 = y * y + 1 + x * x by ring, ← hm]
    ext <;> simp only [] <;> field_simp
  have hs : 0 < b * k.fx / d := by positivity
  refine ⟨rpos, ?_, ?_, ?_, ?_⟩
  · rw [hp, hr]
    have := mag3_scale (b * k.fx / d) hs.le ⟨x, y, 1⟩
    rw [mul_one] at this
    rw [this, hm]
    unfold mag3
    simp only []
    congr 2
    ring
  · rw [hp]; exact hs
  · rw [hp]
    have hxx : x * k.fx = q.x - k.cx := by rw [hx]; field_simp
    have hyy : y * k.fy = q.y - k.cy := by rw [hy]; field_simp
    have := hs.ne'
    generalize b * k.fx / d = s at *
    unfold pinhole
    ext
    · simp only []; rw [show s * x * (1 / s) * k.fx = x * k.fx by field_simp]; linarith
    · simp only []; rw [show s * y * (1 / s) * k.fy = y * k.fy by field_simp]; linarith
  · rw [hp]
    have hxx : x * k.fx = q.x - k.cx := by rw [hx]; field_simp
    have hyy : y * k.fy = q.y - k.cy := by rw [hy]; field_simp
    have hn := hs.ne'
    have hbs : b = b * k.fx / d * (d / k.fx) := by field_simp
    unfold pinhole fromCam1
    ext
    · simp only []
      rw [show (b * k.fx / d * x - b) * (1 / (b * k.fx / d)) * k.fx = x * k.fx - d by field_simp]; linarith
    · simp only []
      rw [show b * k.fx / d * y * (1 / (b * k.fx / d)) * k.fy = y * k.fy by field_simp]; linarith

/-- LATLON: a disparity that no point can have (it would be beyond 90deg to the left in camera1) has a negative range: it isn't reported as 0 -/
theorem range_negative_wrong : ∃ (k : Core) (b d : ℝ) (q : P2), 0 < k.fx ∧ 0 < b ∧ 0 < d ∧ rangeOne .latlon k b d q < 0 := by
  refine ⟨⟨1, 1, 0, 0⟩, 1, 2, ⟨0, 0⟩, by norm_num, by norm_num, by norm_num, ?_⟩
  unfold rangeOne
  have hpi := Real.pi_gt_three
  have hpi4 := Real.pi_lt_four
  have hs : 0 < Real.sin 2 := Real.sin_pos_of_pos_of_lt_pi (by norm_num) (by linarith)
  have hc : Real.cos (0 - 2) < 0 := by
    rw [zero_sub, Real.cos_neg]
    exact Real.cos_neg_of_pi_div_two_lt_of_lt (by linarith) (by linarith)
  simp only [if_true, one_ne_zero, if_false, sub_zero, div_one]
  rw [if_neg hs.ne']
  rw [one_mul]
  exact div_neg_of_neg_of_pos hc hs

/-! ### the arrays -/

/-- **C36**: each element of the array gets the range of its disparity. Disparities that are ≤0 or out of bounds get 0. Nothing else is written. It fails exactly
for unknown models or an empty interval -/
theorem range_sparse (m : RectType) (k : Core) (b : ℝ) (N : Nat) (d : Nat → ℝ) (q : Nat → P2) (dmin dmax : ℝ) (out : Nat → ℝ) :
    (rangeSparse m k b N d q dmin dmax out = none ↔ ¬ (m = .latlon ∨ m = .pinhole) ∨ dmax ≤ dmin) ∧
    ∀ r, rangeSparse m k b N d q dmin dmax out = some r → ∀ i,
      (N ≤ i → r i = out i) ∧
      (i < N → (0 < d i ∧ dmin ≤ d i ∧ d i ≤ dmax → r i = rangeOne m k b (d i) (q i)) ∧ (¬ (0 < d i ∧ dmin ≤ d i ∧ d i ≤ dmax) → r i = 0)) := by
  unfold rangeSparse
  constructor
  · by_cases hv : validRectType m = true
    · rw [if_neg (by simp [hv])]
      have : m = .latlon ∨ m = .pinhole := by cases m <;> simp_all [validRectType]
      by_cases h : dmin ≥ dmax
      · rw [if_pos h]; simp [h.le]
      · rw [if_neg h]; simp [this]; exact not_le.mp h
    · rw [if_pos hv]
      have : ¬ (m = .latlon ∨ m = .pinhole) := by cases m <;> simp_all [validRectType]
      simp only [this, not_false_eq_true, true_or]
  · intro r hr i
    by_cases hv : ¬ validRectType m = true
    · rw [if_pos hv] at hr; cases hr
    rw [if_neg hv] at hr
    by_cases h : dmin ≥ dmax
    · rw [if_pos h] at hr; cases hr
    rw [if_neg h] at hr
    rw [← Option.some.inj hr, loopWrite_id]
    constructor
    · intro hi; rw [if_neg (by omega)]
    · intro hi
      rw [if_pos hi]
      constructor
      · rintro ⟨h1, h2, h3⟩
        rw [if_neg]; push Not; exact ⟨h1, h2, h3⟩
      · intro hn
        rw [if_pos]; by_contra hc; push Not at hc; exact hn hc

/-- **C36**: the ranges of an array of points, given their disparities in the two cameras: all the distances are right -/
theorem range_sparse_points (k : Core) (hfx : 0 < k.fx) (hfy : k.fy ≠ 0) (b : ℝ) (hb : 0 < b) (N : Nat) (p : Nat → P3) (dmin dmax : ℝ) (out : Nat → ℝ) :
    (∀ r, (∀ i, i < N → (p i).y ≠ 0 ∨ (p i).z ≠ 0) →
      (∀ i, i < N → dmin ≤ (latlon k (p i)).q.x - (latlon k (fromCam1 b (p i))).q.x ∧ (latlon k (p i)).q.x - (latlon k (fromCam1 b (p i))).q.x ≤ dmax) →
      rangeSparse .latlon k b N (fun i => (latlon k (p i)).q.x - (latlon k (fromCam1 b (p i))).q.x) (fun i => (latlon k (p i)).q) dmin dmax out = some r →
      ∀ i, i < N → r i = mag3 (p i)) ∧
    (∀ r, (∀ i, i < N → 0 < (p i).z) →
      (∀ i, i < N → dmin ≤ (pinhole k (p i)).q.x - (pinhole k (fromCam1 b (p i))).q.x ∧ (pinhole k (p i)).q.x - (pinhole k (fromCam1 b (p i))).q.x ≤ dmax) →
      rangeSparse .pinhole k b N (fun i => (pinhole k (p i)).q.x - (pinhole k (fromCam1 b (p i))).q.x) (fun i => (pinhole k (p i)).q) dmin dmax out = some r →
      ∀ i, i < N → r i = mag3 (p i)) := by
  constructor
  · intro r hp hd hr i hi
    rw [(((range_sparse _ _ _ _ _ _ _ _ _).2 r hr i).2 hi).1 ⟨(disparity_latlon k hfx b hb (p i) (hp i hi)).1, hd i hi⟩]
    exact range_latlon k hfx.ne' b hb.ne' (p i) (hp i hi)
  · intro r hp hd hr i hi
    rw [(((range_sparse _ _ _ _ _ _ _ _ _).2 r hr i).2 hi).1 ⟨(disparity_pinhole k hfx b hb (p i) (hp i hi)).1, hd i hi⟩]
    exact range_pinhole k hfx.ne' hfy b hb.ne' (p i) (hp i hi)

theorem loopWrite2_eq {α : Type} (H W : Nat) (value : Nat → Nat → α) (out : Nat → Nat → α) (x y : Nat) :
    loopWrite2 H W value out x y = if x < W ∧ y < H then value y x else out x y := by
  have row : ∀ (W i : Nat) (o : Nat → Nat → α) (x y : Nat),
      (List.range W).foldl (fun out j => fun x y => if x = j ∧ y = i then value i j else out x y) o x y = if x < W ∧ y = i then value i x else o x y := by
    intro W i o
    induction W with
    | zero => intro x y; simp
    | succ n ih =>
      intro x y
      rw [List.range_succ, List.foldl_append]
      simp only [List.foldl_cons, List.foldl_nil]
      rw [ih]
      by_cases h1 : x = n ∧ y = i
      · rw [if_pos h1, if_pos ⟨by omega, h1.2⟩, h1.1]
      · rw [if_neg h1]
        by_cases h2 : x < n ∧ y = i
        · rw [if_pos h2, if_pos ⟨by omega, h2.2⟩]
        · rw [if_neg h2, if_neg]; rintro ⟨a, c⟩; by_cases x = n
          · exact h1 ⟨by assumption, c⟩
          · exact h2 ⟨by omega, c⟩
  unfold loopWrite2
  induction H generalizing x y with
  | zero => simp
  | succ n ih =>
    rw [List.range_succ, List.foldl_append]
    simp only [List.foldl_cons, List.foldl_nil]
    rw [row, ih]
    by_cases h1 : x < W ∧ y = n
    · rw [if_pos h1, if_pos ⟨h1.1, by omega⟩, h1.2]
    · rw [if_neg h1]
      by_cases h2 : x < W ∧ y < n
      · rw [if_pos h2, if_pos ⟨h2.1, by omega⟩]
      · rw [if_neg h2, if_neg]; rintro ⟨a, c⟩; by_cases y = n
        · exact h1 ⟨a, by assumption⟩
        · exact h2 ⟨a, by omega⟩

/-- **C36**: each pixel of the range image is the range of that pixel with disparity (scaled disparity)/scale; 0 for disparities that are 0 or out of bounds -/
theorem range_dense (m : RectType) (k : Core) (b : ℝ) (d : Image Nat) (scale dmin dmax : Nat) (out : Image ℝ) (hs : 0 < scale) :
    (rangeDense m k b d scale dmin dmax out = none ↔
      ¬ (m = .latlon ∨ m = .pinhole) ∨ dmax ≤ dmin ∨ out.width ≠ d.width ∨ out.height ≠ d.height) ∧
    ∀ r, rangeDense m k b d scale dmin dmax out = some r → r.width = d.width ∧ r.height = d.height ∧ ∀ x y, x < d.width → y < d.height →
      (0 < d.px x y ∧ dmin ≤ d.px x y ∧ d.px x y ≤ dmax → r.px x y = rangeOne m k b ((d.px x y : ℝ) / (scale : ℝ)) ⟨(x : ℝ), (y : ℝ)⟩) ∧
      (¬ (0 < d.px x y ∧ dmin ≤ d.px x y ∧ d.px x y ≤ dmax) → r.px x y = 0) := by
  unfold rangeDense
  by_cases hv : validRectType m = true
  · have hm : m = .latlon ∨ m = .pinhole := by cases m <;> simp_all [validRectType]
    rw [if_neg (by simp [hv])]
    by_cases h : dmin ≥ dmax
    · rw [if_pos h]
      exact ⟨by simp [h.le], fun r hr => by cases hr⟩
    rw [if_neg h]
    by_cases hw : out.width ≠ d.width ∨ out.height ≠ d.height
    · rw [if_pos hw]
      exact ⟨by simp only [true_iff]; exact Or.inr (Or.inr hw), fun r hr => by cases hr⟩
    rw [if_neg hw]
    push Not at hw h
    constructor
    · simp only [reduceCtorEq, false_iff]
      push Not
      exact ⟨hm, h, hw⟩
    · intro r hr
      rw [← Option.some.inj hr]
      refine ⟨hw.1, hw.2, fun x y hx hy => ?_⟩
      simp only []
      rw [loopWrite2_eq, if_pos ⟨by omega, by omega⟩]
      constructor
      · rintro ⟨h1, h2, h3⟩
        rw [if_neg (by omega), if_neg (by omega)]
      · intro hn
        rw [if_pos (by omega)]
  · have hm : ¬ (m = .latlon ∨ m = .pinhole) := by cases m <;> simp_all [validRectType]
    rw [if_pos hv]
    exact ⟨by simp only [hm, not_false_eq_true, true_or], fun r hr => by cases hr⟩

/-- the size of a disparity image -/
def DispImage.size : DispImage → Nat × Nat
  | .ints _ d => (d.width, d.height)
  | .floats d => (d.width, d.height)

/-- **C36**: a disparity image of the wrong size is rejected; a range image has the size of the rectified imager -/
theorem stereo_range_size (m : RectType) (k : Core) (b : ℝ) (W H : Nat) (d : DispImage) (scale : Nat) :
    (d.size ≠ (W, H) → pyStereoRange m k b W H d scale = none) ∧ ∀ r, pyStereoRange m k b W H d scale = some r → (r.width, r.height) = (W, H) := by
  have hsz : d.size = (d.astypeU16.width, d.astypeU16.height) := by cases d <;> rfl
  constructor
  · intro h
    unfold pyStereoRange
    dsimp only
    rw [if_pos]
    by_contra hc
    rw [not_or, not_not, not_not] at hc
    exact h (by rw [hsz, hc.1, hc.2])
  · intro r hr
    unfold pyStereoRange at hr
    dsimp only at hr
    by_cases hc : d.astypeU16.width ≠ W ∨ d.astypeU16.height ≠ H
    · rw [if_pos hc] at hr; simp at hr
    · rw [if_neg hc] at hr
      unfold rangeDense at hr
      split_ifs at hr <;> rw [← Option.some.inj hr]

example : (DispImage.ints true ⟨2, 1, fun _ _ => 3⟩).size ≠ (2, 2) := by decide

theorem pyStereoRange_ints (m : RectType) (k : Core) (b : ℝ) (f : Bool) (d : Image Int) (scale : Nat) :
    pyStereoRange m k b d.width d.height (.ints f d) scale =
      rangeDense m k b ⟨d.width, d.height, fun x y => (d.px x y % 65536).toNat⟩ scale 0 (if f then 0x7FFF else 65535) ⟨d.width, d.height, fun _ _ => 0⟩ := by
  unfold pyStereoRange
  cases f
  · exact if_neg (by simp [DispImage.astypeU16])
  · exact if_neg (by simp [DispImage.astypeU16])

/-- **C36**: a `np.int16` disparity image, as produced by OpenCV: each pixel with a positive disparity gets the range; all others, including the negative ones, get 0 -/
theorem stereo_range_int16 (m : RectType) (hm : m = .latlon ∨ m = .pinhole) (k : Core) (b : ℝ) (d : Image Int)
    (hd : ∀ x y, -32768 ≤ d.px x y ∧ d.px x y ≤ 32767) (scale : Nat) (hs : 0 < scale) :
    ∃ r, pyStereoRange m k b d.width d.height (.ints true d) scale = some r ∧ ∀ x y, x < d.width → y < d.height →
      (0 < d.px x y → r.px x y = rangeOne m k b ((d.px x y : ℝ) / (scale : ℝ)) ⟨(x : ℝ), (y : ℝ)⟩) ∧ (d.px x y ≤ 0 → r.px x y = 0) := by
  rw [pyStereoRange_ints, if_pos rfl]
  obtain ⟨hn, h⟩ := range_dense m k b ⟨d.width, d.height, fun x y => (d.px x y % 65536).toNat⟩ scale 0 0x7FFF ⟨d.width, d.height, fun _ _ => 0⟩ hs
  have hne : rangeDense m k b ⟨d.width, d.height, fun x y => (d.px x y % 65536).toNat⟩ scale 0 0x7FFF ⟨d.width, d.height, fun _ _ => 0⟩ ≠ none := by
    intro hc
    rcases hn.mp hc with h1 | h1 | h1 | h1
    · exact h1 hm
    · omega
    · exact h1 rfl
    · exact h1 rfl
  obtain ⟨r, hr⟩ := Option.ne_none_iff_exists'.mp hne
  refine ⟨r, hr, fun x y hx hy => ?_⟩
  obtain ⟨-, -, h2⟩ := h r hr
  obtain ⟨ha, hb⟩ := h2 x y hx hy
  obtain ⟨l, u⟩ := hd x y
  constructor
  · intro hp
    have hmod : d.px x y % 65536 = d.px x y := by omega
    have := ha ⟨by simp only [hmod]; omega, by omega, by simp only [hmod]; omega⟩
    rw [this]
    congr 1
    simp only [hmod]
    rw [← Int.cast_natCast (R := ℝ), Int.toNat_of_nonneg hp.le]
  · intro hp
    apply hb
    simp only []
    omega

/-- A float disparity image: "If disparity_scale is omitted, this array contains floating-point disparity values in PIXELS". These are truncated to an integer, so
the whole object with a disparity < 1 pixel has no range -/
theorem stereo_range_float_wrong : ∃ (k : Core) (d : Image ℝ) (r : Image ℝ), 0 < d.px 0 0 ∧
    pyStereoRange .pinhole k 1 d.width d.height (.floats d) 1 = some r ∧ r.px 0 0 = 0 ∧ rangeOne .pinhole k 1 (d.px 0 0) ⟨0, 0⟩ = 2 := by
  refine ⟨⟨1, 1, 0, 0⟩, ⟨1, 1, fun _ _ => 1 / 2⟩, ⟨1, 1, fun x y => if x < 1 ∧ y < 1 then 0 else 0⟩, by norm_num, ?_, by norm_num, ?_⟩
  · have hf : ⌊(2 : ℝ)⁻¹⌋ = 0 := by rw [Int.floor_eq_iff]; norm_num
    have h0 : (0 : ℝ) ≤ 1 / 2 := by norm_num
    simp only [pyStereoRange, DispImage.astypeU16, rangeDense, validRectType]
    norm_num [hf]
    funext x y
    rw [loopWrite2_eq]
    split <;> simp
  · unfold rangeOne
    rw [if_neg (by decide)]
    norm_num

/-- An integer disparity image that isn't 16-bit: invalid (negative) disparities wrap around, and report a (positive) range -/
theorem stereo_range_int32_wrong : ∃ (k : Core) (d : Image Int) (r : Image ℝ), d.px 0 0 < 0 ∧
    pyStereoRange .pinhole k 1 d.width d.height (.ints false d) 256 = some r ∧ 0 < r.px 0 0 := by
  obtain ⟨hn, h⟩ := range_dense .pinhole ⟨65280, 1, 0, 0⟩ 1 ⟨1, 1, fun _ _ => ((-256 : Int) % 65536).toNat⟩ 256 0 65535 ⟨1, 1, fun _ _ => 0⟩ (by norm_num)
  have hne : rangeDense .pinhole ⟨65280, 1, 0, 0⟩ 1 ⟨1, 1, fun _ _ => ((-256 : Int) % 65536).toNat⟩ 256 0 65535 ⟨1, 1, fun _ _ => 0⟩ ≠ none := by
    intro hc
    have := hn.mp hc
    simp at this
  obtain ⟨r, hr⟩ := Option.ne_none_iff_exists'.mp hne
  refine ⟨⟨65280, 1, 0, 0⟩, ⟨1, 1, fun _ _ => -256⟩, r, by norm_num, ?_, ?_⟩
  · rw [pyStereoRange_ints, if_neg (by simp)]
    exact hr
  · obtain ⟨-, -, h2⟩ := h r hr
    obtain ⟨ha, -⟩ := h2 0 0 (by norm_num) (by norm_num)
    rw [ha (by norm_num)]
    unfold rangeOne
    rw [if_neg (by decide)]
    norm_num

/-- a whole int16 image that meets the hypotheses -/
example : ∃ r, pyStereoRange .latlon ⟨100, 100, 0, 0⟩ 1 2 1 (.ints true ⟨2, 1, fun x _ => if x = 0 then -16 else 32⟩) 16 = some r ∧ r.px 0 0 = 0 := by
  obtain ⟨r, hr, h⟩ := stereo_range_int16 .latlon (Or.inl rfl) ⟨100, 100, 0, 0⟩ 1 ⟨2, 1, fun x _ => if x = 0 then -16 else 32⟩
    (fun x y => by simp only []; split <;> norm_num) 16 (by norm_num)
  exact ⟨r, hr, (h 0 0 (by norm_num) (by norm_num)).2 (by norm_num)⟩
/-- the hypotheses of unproject_latlon -/
example : -Real.pi < ((5 : ℝ) - 0) / 100 ∧ ((5 : ℝ) - 0) / 100 ≤ Real.pi ∧ ((20 : ℝ) - 0) / 100 < Real.pi / 2 ∧ -(Real.pi / 2) < ((20 : ℝ) - 30 - 0) / 100 := by
  have := Real.pi_gt_three
  refine ⟨?_, ?_, ?_, ?_⟩ <;> linarith

end Mrcal.Stereo
