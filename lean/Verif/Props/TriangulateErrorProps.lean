import Verif.Props.TriangulateRayGradProps
import Mathlib.Analysis.SpecialFunctions.Trigonometric.Inverse
/-
C35: the error of a triangulated pair: the blending functions, the value and the gradients.
-/
namespace Mrcal.Tri
open Mrcal.AD Filter Topology
open Mrcal.Pose (HasDerivP)

variable {N : Nat} {A B : ℝ → Val N} {U V W : ℝ → Vec3 N} {d : Fin N → ℝ} {s : ℝ}

/-! ### the blending functions -/

/-- max(x,0)² : everything below is built of these -/
noncomputable def q (x : ℝ) : ℝ := max x 0 * max x 0

theorem q_deriv (x : ℝ) : HasDerivAt q (2 * max x 0) x := by
  have hL : ∀ y ≤ (0 : ℝ), q y = 0 := fun y hy => by simp [q, max_eq_right hy]
  have hR : ∀ y, (0 : ℝ) ≤ y → q y = y ^ 2 := fun y hy => by rw [q, max_eq_left hy]; ring
  have h2 : HasDerivAt (fun y : ℝ => y ^ 2) (2 * x) x := by simpa using hasDerivAt_pow 2 x
  rcases lt_trichotomy x 0 with h | h | h
  · rw [max_eq_right h.le, mul_zero]
    exact (hasDerivAt_const x (0 : ℝ)).congr_of_eventuallyEq ((eventually_lt_nhds h).mono fun y hy => hL y (le_of_lt hy))
  · subst h
    rw [max_self, mul_zero]
    have a : HasDerivWithinAt q 0 (Set.Iic 0) 0 := (hasDerivWithinAt_const (0 : ℝ) (Set.Iic 0) (0 : ℝ)).congr (fun y hy => hL y hy) (hL 0 le_rfl)
    have b : HasDerivWithinAt q 0 (Set.Ici 0) 0 := by
      rw [mul_zero] at h2
      exact h2.hasDerivWithinAt.congr (fun y hy => hR y hy) (hR 0 le_rfl)
    have := a.union b
    rw [Set.Iic_union_Ici] at this
    exact hasDerivWithinAt_univ.1 this
  · rw [max_eq_left h.le]
    exact h2.congr_of_eventuallyEq ((eventually_gt_nhds h).mono fun y hy => hR y (le_of_lt hy))

theorem relu_q (x k : ℝ) (hk : 0 < k) : relu x k = (q x - q (x - k)) / (2 * k) := by
  unfold relu q
  by_cases h1 : x ≤ 0
  · rw [if_pos h1, max_eq_right h1, max_eq_right (by linarith)]; simp
  rw [if_neg h1]
  push Not at h1
  by_cases h2 : k ≤ x
  · rw [if_pos h2, max_eq_left h1.le, max_eq_left (by linarith)]; field_simp; ring
  · rw [if_neg h2, max_eq_left h1.le, max_eq_right (by linarith)]; field_simp; ring

/-- **C35**: relu() is nonnegative, monotone, within knee/2 of max(x,0); differentiable everywhere (so the pieces join smoothly), with the slope going from 0 to 1 -/
theorem relu_spec (k : ℝ) (hk : 0 < k) :
    (∀ x, 0 ≤ relu x k ∧ relu x k ≤ max x 0 ∧ max x 0 - k / 2 ≤ relu x k) ∧ Monotone (fun x => relu x k) ∧
    (∀ x, HasDerivAt (fun y => relu y k) (max 0 (min 1 (x / k))) x) := by
  have hd : ∀ x, HasDerivAt (fun y => relu y k) (max 0 (min 1 (x / k))) x := by
    intro x
    have e : (fun y => relu y k) = fun y => (q y - q (y - k)) / (2 * k) := funext fun y => relu_q y k hk
    rw [e]
    have h := ((q_deriv x).sub ((q_deriv (x - k)).comp_sub_const x k)).div_const (2 * k)
    refine h.congr_deriv ?_
    rcases le_total x 0 with h1 | h1
    · rw [max_eq_right h1, max_eq_right (by linarith), max_eq_left]; simp
      exact (min_le_right _ _).trans (div_nonpos_of_nonpos_of_nonneg h1 hk.le)
    · rw [max_eq_left h1]
      rcases le_total k x with h2 | h2
      · rw [max_eq_left (by linarith), min_eq_left ((one_le_div hk).2 h2), max_eq_right zero_le_one]; field_simp; ring
      · rw [max_eq_right (by linarith), min_eq_right ((div_le_one hk).2 h2), max_eq_right (by positivity)]; field_simp; ring
  refine ⟨?_, ?_, hd⟩
  · intro x
    unfold relu
    by_cases h1 : x ≤ 0
    · rw [if_pos h1, max_eq_right h1]; exact ⟨le_rfl, le_rfl, by linarith⟩
    rw [if_neg h1]
    push Not at h1
    rw [max_eq_left h1.le]
    by_cases h2 : k ≤ x
    · rw [if_pos h2]; exact ⟨by linarith, by linarith, le_rfl⟩
    · rw [if_neg h2]
      push Not at h2
      have e : 1 / (2 * k) * x * x = x * x / (2 * k) := by field_simp
      rw [e]
      refine ⟨by positivity, ?_, ?_⟩
      · rw [div_le_iff₀ (by positivity)]; nlinarith
      · rw [le_div_iff₀ (by positivity)]; nlinarith [mul_self_nonneg (x - k)]
  · exact monotone_of_deriv_nonneg (fun x => (hd x).differentiableAt) fun x => by rw [(hd x).deriv]; exact le_max_left _ _

/-- the documented sigmoid: 0 below 0, 1 above the knee, two parabolas in between -/
noncomputable def smooth (k x : ℝ) : ℝ :=
  if x ≤ 0 then 0 else if k ≤ x then 1 else if x < k / 2 then 2 * (x / k) ^ 2 else 1 - 2 * (1 - x / k) ^ 2
/-- its slope -/
noncomputable def smoothD (k x : ℝ) : ℝ :=
  if x ≤ 0 then 0 else if k ≤ x then 0 else if x < k / 2 then 4 * x / k ^ 2 else 4 * (k - x) / k ^ 2

theorem sigmoid_val (a : Val N) (k : ℝ) (hk : 0 < k) : sigmoid a k = ⟨smooth k a.x, fun i => smoothD k a.x * a.j i⟩ := by
  unfold sigmoid smooth smoothD
  by_cases h1 : a.x ≤ 0
  · simp only [if_pos h1, Val.ofR, zero_mul]
  simp only [if_neg h1]
  by_cases h2 : k ≤ a.x
  · simp only [if_pos h2, Val.ofR, zero_mul]
  simp only [if_neg h2]
  by_cases h3 : a.x < k / 2
  · simp only [if_pos h3, Val.addC, Val.mul, Val.subC, Val.mulC]
    ext i
    · simp only; field_simp; ring
    · simp only; field_simp; ring
  · simp only [if_neg h3, Val.addC, Val.mul, Val.subC, Val.mulC]
    ext i
    · simp only; field_simp; ring
    · simp only; field_simp; ring

theorem smooth_q (k x : ℝ) (hk : 0 < k) : smooth k x = 2 * (q (x / k) - 2 * q (x / k - 1 / 2) + q (x / k - 1)) := by
  unfold smooth q
  by_cases h1 : x ≤ 0
  · have : x / k ≤ 0 := div_nonpos_of_nonpos_of_nonneg h1 hk.le
    rw [if_pos h1, max_eq_right this, max_eq_right (by linarith), max_eq_right (by linarith)]; norm_num
  rw [if_neg h1]
  push Not at h1
  have p : 0 < x / k := by positivity
  by_cases h2 : k ≤ x
  · have : 1 ≤ x / k := (one_le_div hk).2 h2
    rw [if_pos h2, max_eq_left p.le, max_eq_left (by linarith), max_eq_left (by linarith)]; ring
  rw [if_neg h2]
  push Not at h2
  have p2 : x / k < 1 := (div_lt_one hk).2 h2
  by_cases h3 : x < k / 2
  · have : x / k < 1 / 2 := by rw [div_lt_iff₀ hk]; linarith
    rw [if_pos h3, max_eq_left p.le, max_eq_right (by linarith), max_eq_right (by linarith)]; ring
  · have : 1 / 2 ≤ x / k := by rw [le_div_iff₀ hk]; linarith
    rw [if_neg h3, max_eq_left p.le, max_eq_left (by linarith), max_eq_right (by linarith)]; ring

theorem smooth_deriv (k x : ℝ) (hk : 0 < k) : HasDerivAt (smooth k) (smoothD k x) x := by
  have e : smooth k = fun x => 2 * (q (x / k) - 2 * q (x / k - 1 / 2) + q (x / k - 1)) := funext fun x => smooth_q k x hk
  rw [e]
  have hx : HasDerivAt (fun x : ℝ => x / k) (1 / k) x := (hasDerivAt_id x).div_const k
  have a := (q_deriv (x / k)).comp x hx
  have b := (q_deriv (x / k - 1 / 2)).comp x (hx.sub_const (1 / 2))
  have c := (q_deriv (x / k - 1)).comp x (hx.sub_const 1)
  have h := ((a.sub (b.const_mul 2)).add c).const_mul 2
  refine HasDerivAt.congr_deriv h ?_
  unfold smoothD
  by_cases h1 : x ≤ 0
  · have : x / k ≤ 0 := div_nonpos_of_nonpos_of_nonneg h1 hk.le
    rw [if_pos h1, max_eq_right this, max_eq_right (by linarith), max_eq_right (by linarith)]; simp
  rw [if_neg h1]
  push Not at h1
  have p : 0 < x / k := by positivity
  by_cases h2 : k ≤ x
  · have : 1 ≤ x / k := (one_le_div hk).2 h2
    rw [if_pos h2, max_eq_left p.le, max_eq_left (by linarith), max_eq_left (by linarith)]; ring
  rw [if_neg h2]
  push Not at h2
  have p2 : x / k < 1 := (div_lt_one hk).2 h2
  by_cases h3 : x < k / 2
  · have : x / k < 1 / 2 := by rw [div_lt_iff₀ hk]; linarith
    rw [if_pos h3, max_eq_left p.le, max_eq_right (by linarith), max_eq_right (by linarith)]; field_simp; ring
  · have : 1 / 2 ≤ x / k := by rw [le_div_iff₀ hk]; linarith
    rw [if_neg h3, max_eq_left p.le, max_eq_left (by linarith), max_eq_right (by linarith)]; field_simp; ring

theorem smoothD_nonneg (k x : ℝ) : 0 ≤ smoothD k x := by
  unfold smoothD
  by_cases h1 : x ≤ 0
  · rw [if_pos h1]
  rw [if_neg h1]
  push Not at h1
  by_cases h2 : k ≤ x
  · rw [if_pos h2]
  rw [if_neg h2]
  push Not at h2
  by_cases h3 : x < k / 2
  · rw [if_pos h3]; positivity
  · rw [if_neg h3]; have : 0 ≤ k - x := by linarith
    positivity

/-- **C35**: sigmoid() is a smooth step: 0 up to 0, 1 past the knee, one half in the middle, monotone, in [0,1]; differentiable everywhere (so the pieces join smoothly), and the gradients
it propagates are the true ones -/
theorem sigmoid_spec (k : ℝ) (hk : 0 < k) :
    (∀ a : Val N, 0 ≤ (sigmoid a k).x ∧ (sigmoid a k).x ≤ 1) ∧
    (∀ a : Val N, a.x ≤ 0 → (sigmoid a k).x = 0) ∧ (∀ a : Val N, k ≤ a.x → (sigmoid a k).x = 1) ∧ (∀ a : Val N, a.x = k / 2 → (sigmoid a k).x = 1 / 2) ∧
    (∀ a b : Val N, a.x ≤ b.x → (sigmoid a k).x ≤ (sigmoid b k).x) ∧
    (∀ (A : ℝ → Val N) (d : Fin N → ℝ) (s : ℝ), HasDerivAt (fun u => (A u).x) ((A s).rate d) s →
      HasDerivAt (fun u => (sigmoid (A u) k).x) ((sigmoid (A s) k).rate d) s) := by
  have mono : Monotone (smooth k) :=
    monotone_of_deriv_nonneg (fun x => (smooth_deriv k x hk).differentiableAt) fun x => by rw [(smooth_deriv k x hk).deriv]; exact smoothD_nonneg k x
  have z : ∀ x ≤ (0 : ℝ), smooth k x = 0 := fun x h => by rw [smooth, if_pos h]
  have o : ∀ x, k ≤ x → smooth k x = 1 := fun x h => by rw [smooth, if_neg (by linarith), if_pos h]
  refine ⟨?_, ?_, ?_, ?_, ?_, ?_⟩
  · intro a
    rw [sigmoid_val a k hk]
    constructor
    · rcases le_total a.x 0 with h | h
      · exact (z _ h).ge
      · rw [← z 0 le_rfl]; exact mono h
    · rcases le_total k a.x with h | h
      · exact (o _ h).le
      · rw [← o k le_rfl]; exact mono h
  · intro a h; rw [sigmoid_val a k hk]; exact z _ h
  · intro a h; rw [sigmoid_val a k hk]; exact o _ h
  · intro a h; rw [sigmoid_val a k hk]
    simp only [smooth, h]
    rw [if_neg (by linarith), if_neg (by linarith), if_neg (lt_irrefl _)]; field_simp; norm_num
  · intro a b h; rw [sigmoid_val a k hk, sigmoid_val b k hk]; exact mono h
  · intro A d s h
    have e : (fun u => (sigmoid (A u) k).x) = fun u => smooth k (A u).x := funext fun u => by rw [sigmoid_val _ k hk]
    rw [e, sigmoid_val _ k hk]
    have := (smooth_deriv k (A s).x hk).comp s h
    refine HasDerivAt.congr_deriv this ?_
    simp only [Val.rate, Finset.mul_sum, mul_assoc]

/-- with no knee the transition is sharp, as documented -/
theorem sigmoid_sharp (a : Val N) (k : ℝ) (hk : k ≤ 0) : (sigmoid a k).x = if a.x ≤ 0 then 0 else 1 := by
  unfold sigmoid
  by_cases h1 : a.x ≤ 0
  · simp only [if_pos h1, Val.ofR]
  · rw [if_neg h1, if_pos (by linarith), if_neg h1]; rfl

example : (sigmoid (Val.ofR 1 : Val 6) 3).x = 2 / 9 := by
  rw [sigmoid_val _ 3 (by norm_num)]; norm_num [smooth, Val.ofR]

theorem TC.sigmoid (hA : TC A d s) (k : ℝ) (hk : 0 < k) : TC (fun u => sigmoid (A u) k) d s := (sigmoid_spec k hk).2.2.2.2.2 A d s hA

/-! ### the angle -/

/-- the chord of the angle between two lines: 2 sin(θ/2), θ in 0..90 degrees -/
noncomputable def chord (a b : P3) : ℝ := 2 * Real.sin (Real.arccos (|dotp a b| / (Real.sqrt (len2 a) * Real.sqrt (len2 b))) / 2)
/-- tiny chords are reported as 0 -/
noncomputable def chordCut (a b : P3) : ℝ := if chord a b ^ 2 < 1e-21 then 0 else chord a b

theorem cos_bound_abs (a b : P3) : 0 ≤ |dotp a b| / (Real.sqrt (len2 a) * Real.sqrt (len2 b)) ∧ |dotp a b| / (Real.sqrt (len2 a) * Real.sqrt (len2 b)) ≤ 1 := by
  refine ⟨by positivity, ?_⟩
  apply div_le_one_of_le₀ _ (by positivity)
  rw [← Real.sqrt_mul (len2_nonneg a)]
  apply Real.le_sqrt_of_sq_le
  rw [sq_abs]
  have := lagrange a b
  have n := len2_nonneg (crossp a b)
  nlinarith

theorem chord_nonneg (a b : P3) : 0 ≤ chord a b := by
  have h := cos_bound_abs a b
  refine mul_nonneg (by norm_num) (Real.sin_nonneg_of_nonneg_of_le_pi (by have := Real.arccos_nonneg (|dotp a b| / (Real.sqrt (len2 a) * Real.sqrt (len2 b))); linarith) ?_)
  have := Real.arccos_le_pi (|dotp a b| / (Real.sqrt (len2 a) * Real.sqrt (len2 b)))
  have := Real.pi_pos
  linarith

theorem chord_sq (a b : P3) : chord a b ^ 2 = 2 - 2 * (|dotp a b| / (Real.sqrt (len2 a) * Real.sqrt (len2 b))) := by
  have h := cos_bound_abs a b
  unfold chord
  generalize |dotp a b| / (Real.sqrt (len2 a) * Real.sqrt (len2 b)) = c at *
  have hc : Real.cos (2 * (Real.arccos c / 2)) = c := by
    rw [mul_div_cancel₀ _ (two_ne_zero)]; exact Real.cos_arccos (by linarith) h.2
  rw [Real.cos_two_mul, ← sub_eq_zero] at hc
  have := Real.sin_sq_add_cos_sq (Real.arccos c / 2)
  nlinarith

theorem chordCut_nonneg (a b : P3) : 0 ≤ chordCut a b := by
  unfold chordCut
  split
  · exact le_rfl
  · exact chord_nonneg a b

/-- the cosine with gradients, before the sign is dropped -/
noncomputable def cosv (v0 v1 : Vec3 N) : Val N := (v0.dot v1).div (v0.norm2.mul v1.norm2).sqrt

theorem cosv_x (v0 v1 : Vec3 N) : (cosv v0 v1).x = dotp v0.value v1.value / (Real.sqrt (len2 v0.value) * Real.sqrt (len2 v1.value)) := by
  simp only [cosv, div_x, sqrt_x, mul_x, dot_x, norm2_x, Real.sqrt_mul (len2_nonneg _)]

theorem abs_cosv (v0 v1 : Vec3 N) : |(cosv v0 v1).x| = |dotp v0.value v1.value| / (Real.sqrt (len2 v0.value) * Real.sqrt (len2 v1.value)) := by
  rw [cosv_x, abs_div, abs_of_nonneg (by positivity : 0 ≤ Real.sqrt (len2 v0.value) * Real.sqrt (len2 v1.value))]

/-- cos(θ) with the sign dropped -/
noncomputable def acosv (v0 v1 : Vec3 N) : Val N := if (cosv v0 v1).x < 0 then (cosv v0 v1).mul (Val.ofR (-1.0)) else cosv v0 v1

theorem angleError_def (v0 v1 : Vec3 N) : angleError v0 v1 =
    if (((acosv v0 v1).mulC (-2)).addC 2).x < 1e-21 then Val.ofR 0 else (((acosv v0 v1).mulC (-2)).addC 2).sqrt := rfl

theorem acosv_x (v0 v1 : Vec3 N) : (acosv v0 v1).x = |(cosv v0 v1).x| := by
  unfold acosv
  by_cases h : (cosv v0 v1).x < 0
  · rw [if_pos h, mul_x, ofR_x, abs_of_neg h]; norm_num
  · rw [if_neg h, abs_of_nonneg (not_lt.1 h)]

theorem thsq_x (v0 v1 : Vec3 N) : (((acosv v0 v1).mulC (-2)).addC 2).x = chord v0.value v1.value ^ 2 := by
  have : (((acosv v0 v1).mulC (-2)).addC 2).x = (acosv v0 v1).x * (-2) + 2 := rfl
  rw [this, acosv_x, abs_cosv, chord_sq]; ring

theorem angleError_x (v0 v1 : Vec3 N) : (angleError v0 v1).x = chordCut v0.value v1.value := by
  rw [angleError_def, thsq_x, chordCut]
  by_cases h : chord v0.value v1.value ^ 2 < 1e-21
  · rw [if_pos h, if_pos h]; rfl
  · rw [if_neg h, if_neg h, sqrt_x, thsq_x, Real.sqrt_sq (chord_nonneg _ _)]

theorem TC.congr_near (hA : TC A d s) (h : ∀ᶠ u in 𝓝 s, B u = A u) : TC B d s := by
  have e : B s = A s := h.self_of_nhds
  unfold TC at hA ⊢
  rw [e]
  exact hA.congr_of_eventuallyEq (h.mono fun u hu => by simp only [hu])

theorem angleError_track (hU : VC U d s) (hV : VC V d s) (h : dotp (U s).value (V s).value ≠ 0) (ht : chord (U s).value (V s).value ^ 2 ≠ 1e-21) :
    TC (fun u => angleError (U u) (V u)) d s := by
  have z : ∀ a : P3, dotp zerop a = 0 := fun a => by simp [dotp, zerop]
  have z' : ∀ a : P3, dotp a zerop = 0 := fun a => by simp [dotp, zerop]
  have hu : (U s).value ≠ zerop := fun h0 => h (by rw [h0, z])
  have hv : (V s).value ≠ zerop := fun h0 => h (by rw [h0, z'])
  have pu := len2_pos hu
  have pv := len2_pos hv
  have pm : 0 < ((U s).norm2.mul (V s).norm2).x := by rw [mul_x, norm2_x, norm2_x]; exact mul_pos pu pv
  have hc : TC (fun u => cosv (U u) (V u)) d s :=
    (hU.dot hV).div ((hU.norm2.mul hV.norm2).sqrt pm) (by rw [sqrt_x]; exact (Real.sqrt_pos.2 pm).ne')
  have ne : (cosv (U s) (V s)).x ≠ 0 := by
    rw [cosv_x]
    exact div_ne_zero h (mul_ne_zero (Real.sqrt_pos.2 pu).ne' (Real.sqrt_pos.2 pv).ne')
  have ha : TC (fun u => acosv (U u) (V u)) d s := by
    rcases lt_or_gt_of_ne ne with hn | hp
    · refine (hc.mul (TC.ofR (-1.0))).congr_near ?_
      filter_upwards [hc.cont.eventually_lt_const hn] with u hu
      rw [acosv, if_pos hu]
    · refine hc.congr_near ?_
      filter_upwards [hc.pos hp] with u hu
      rw [acosv, if_neg (not_lt.2 (le_of_lt hu))]
  have hq := (ha.mulC (-2)).addC 2
  rcases lt_or_gt_of_ne ht with hn | hp
  · refine (TC.ofR 0).congr_near ?_
    have := hq.cont.eventually_lt_const (u := 1e-21) (by show (((acosv (U s) (V s)).mulC (-2)).addC 2).x < _; rw [thsq_x]; exact hn)
    filter_upwards [this] with u hu
    rw [angleError_def, if_pos hu]
  · have hp' : 1e-21 < (((acosv (U s) (V s)).mulC (-2)).addC 2).x := by rw [thsq_x]; exact hp
    refine (hq.sqrt (lt_trans (by norm_num) hp')).congr_near ?_
    have := hq.cont.eventually_const_lt hp'
    filter_upwards [this] with u hu
    rw [angleError_def, if_neg (not_lt.2 (le_of_lt hu))]

/-! ### the error -/

/-- the same expression, whether the rays converge or not: if they do, all three penalties and their gradients are 0 -/
theorem triErrorV_uniform (v0 v1 t : Vec3 N) : triangulatedErrorV v0 v1 t =
    ((angleError v0 (mid2Point (mid2Ranges v0 v1 t).1 v0 (mid2Ranges v0 v1 t).2 v1 t)).mulC 2).add ((angleError v0 v1).mul
      (((sigmoid (worsening (mid2Ranges v0 v1 t).1 v0 (mid2Ranges v0 v1 t).2 v1 t).1.neg 3).add
        (sigmoid (worsening (mid2Ranges v0 v1 t).1 v0 (mid2Ranges v0 v1 t).2 v1 t).2.1.neg 3)).add
        (sigmoid (worsening (mid2Ranges v0 v1 t).1 v0 (mid2Ranges v0 v1 t).2 v1 t).2.2.neg 3))) := by
  unfold triangulatedErrorV
  simp only
  by_cases hc : chirality (mid2Ranges v0 v1 t).1 v0 (mid2Ranges v0 v1 t).2 v1 t
  · rw [if_neg (not_not.2 hc)]
    obtain ⟨h1, h2, h3⟩ := hc
    have z : ∀ a : Val N, a.x > 0 → sigmoid a.neg 3 = Val.ofR 0 := by
      intro a ha
      have : a.neg.x ≤ 0 := by
        have : a.neg.x = a.x * (-1) := rfl
        rw [this]; linarith
      rw [sigmoid, if_pos this]
    rw [z _ h1, z _ h2, z _ h3]
    ext i <;> simp [Val.add, Val.mul, Val.ofR]
  · rw [if_pos hc]

/-- the extra distance if a point is moved to behind its camera, all three combinations -/
def worse (v0 v1 t : P3) (l0 l1 s0 s1 : ℝ) : ℝ := dist2 (sm (s0 * l0) v0) (addp t (sm (s1 * l1) v1)) - dist2 (sm l0 v0) (addp t (sm l1 v1))

/-- the documented error: the angle from the ray to the triangulated point, doubled; for divergent rays, the angle to the vanishing point is blended in -/
noncomputable def errorSpec (v0 v1 t : P3) : ℝ :=
  let l0 := range0 v0 v1 t
  let l1 := range1 v0 v1 t
  2 * chordCut v0 (gmid v0 v1 t l0 l1) +
    chordCut v0 v1 * (smooth 3 (-worse v0 v1 t l0 l1 (-1) 1) + smooth 3 (-worse v0 v1 t l0 l1 1 (-1)) + smooth 3 (-worse v0 v1 t l0 l1 (-1) (-1)))

theorem mid2Point_value (v0 v1 t : Vec3 N) : (mid2Point (mid2Ranges v0 v1 t).1 v0 (mid2Ranges v0 v1 t).2 v1 t).value =
    gmid v0.value v1.value t.value (range0 v0.value v1.value t.value) (range1 v0.value v1.value t.value) := by
  have hr := mid2Ranges_x v0 v1 t
  simp only [mid2Point, divVecC_value, add_value, mulV_value, hr.1, hr.2, gmid]
  rw [show (1 : ℝ) / 2.0 = 1 / 2 by norm_num]
  ext <;> simp only [sm, addp] <;> ring

/-- **C35**: the value of the triangulated error, in all cases -/
theorem triangulated_error_value (v0 v1 t : P3) : (triangulatedError v0 v1 t).1 = errorSpec v0 v1 t := by
  have hr := mid2Ranges_x (N := 6) (Vec3.init v0 none) (Vec3.init v1 (some 0)) (Vec3.init t (some 3))
  have hw := worsening_x (mid2Ranges (N := 6) (Vec3.init v0 none) (Vec3.init v1 (some 0)) (Vec3.init t (some 3))).1 (Vec3.init v0 none)
    (mid2Ranges (N := 6) (Vec3.init v0 none) (Vec3.init v1 (some 0)) (Vec3.init t (some 3))).2 (Vec3.init v1 (some 0)) (Vec3.init t (some 3))
  have hn : ∀ a : Val 6, a.neg.x = -a.x := fun a => by
    have : a.neg.x = a.x * (-1) := rfl
    rw [this]; ring
  have sg : ∀ a : Val 6, (sigmoid a 3).x = smooth 3 a.x := fun a => by rw [sigmoid_val a 3 (by norm_num)]
  show (triangulatedErrorSeeded v0 v1 t).x = _
  unfold triangulatedErrorSeeded
  rw [triErrorV_uniform]
  simp only [add_x, mul_x, mulC_x, angleError_x, mid2Point_value, sg, hn, hw.1, hw.2.1, hw.2.2, hr.1, hr.2, init_value, errorSpec, worse]
  simp only [one_mul, neg_mul]
  ring

/-- **C35**: the error is never negative -/
theorem triangulated_error_nonneg (v0 v1 t : P3) : 0 ≤ (triangulatedError v0 v1 t).1 := by
  rw [triangulated_error_value]
  have s : ∀ x, 0 ≤ smooth 3 x := fun x => by
    have := ((sigmoid_spec (N := 6) 3 (by norm_num)).1 (Val.ofR x)).1
    rwa [sigmoid_val _ 3 (by norm_num)] at this
  unfold errorSpec
  have a := chordCut_nonneg v0 (gmid v0 v1 t (range0 v0 v1 t) (range1 v0 v1 t))
  have b := chordCut_nonneg v0 v1
  have c := s (-worse v0 v1 t (range0 v0 v1 t) (range1 v0 v1 t) (-1) 1)
  have d := s (-worse v0 v1 t (range0 v0 v1 t) (range1 v0 v1 t) 1 (-1))
  have e := s (-worse v0 v1 t (range0 v0 v1 t) (range1 v0 v1 t) (-1) (-1))
  simp only
  positivity

/-- **C35**: for convergent rays, as mrcal sees them, the error is the doubled angle from the ray to the reported mid2 point: there is no penalty -/
theorem triangulated_error_convergent (v0 v1 t : P3) (h : isConvergent v0 v1 t) :
    (triangulatedError v0 v1 t).1 = 2 * chordCut v0 (point (seeded leeciveraMid2 v0 v1 t)) := by
  rw [triangulated_error_value]
  have hf := (isConvergent_spec v0 v1 t).1 h
  obtain ⟨m, hm, hv⟩ := (mid2_spec v0 v1 t (gmid v0 v1 t (range0 v0 v1 t) (range1 v0 v1 t))).2 ⟨hf, rfl⟩
  rw [hm]
  simp only [point, hv]
  obtain ⟨h1, h2, h3⟩ := hf
  have z : ∀ x ≤ (0 : ℝ), smooth 3 x = 0 := fun x h => by rw [smooth, if_pos h]
  simp only [errorSpec]
  rw [z, z, z]
  · ring
  · simp only [worse, neg_mul, one_mul]; linarith
  · simp only [worse, neg_mul, one_mul]; linarith
  · simp only [worse, neg_mul, one_mul]; linarith

/-- **C35**: perfect observations have no error -/
theorem triangulated_error_perfect (v0 v1 t p : P3) (a b : ℝ) (h : Sees v0 v1 t a b p) (hc : crossp v0 v1 ≠ zerop) : (triangulatedError v0 v1 t).1 = 0 := by
  have hconv := isConvergent_perfect v0 v1 t p a b h hc
  rw [triangulated_error_convergent _ _ _ hconv]
  obtain ⟨m, hm, hv⟩ := mid2_exact v0 v1 t p a b h hc
  rw [hm]
  simp only [point, hv]
  have n0 : v0 ≠ zerop := by rintro rfl; apply hc; simp [crossp, zerop]
  have p0 := len2_pos n0
  have : chord v0 p ^ 2 = 0 := by
    rw [chord_sq, h.2.2.1]
    have e1 : dotp v0 (sm a v0) = a * len2 v0 := by simp only [dotp, sm, len2]; ring
    have e2 : len2 (sm a v0) = a ^ 2 * len2 v0 := by simp only [dotp, sm, len2]; ring
    rw [e1, e2, Real.sqrt_mul (by positivity), Real.sqrt_sq h.1.le, abs_of_pos (mul_pos h.1 p0)]
    have s := Real.mul_self_sqrt p0.le
    have sp := Real.sqrt_pos.2 p0
    have ha := h.1
    rw [show Real.sqrt (len2 v0) * (a * Real.sqrt (len2 v0)) = a * len2 v0 by rw [← s]; simp only [Real.sqrt_mul_self sp.le]; ring]
    field_simp; norm_num
  rw [chordCut, this, if_pos (by norm_num)]; ring

example : Sees ⟨0, 0, 1⟩ ⟨-1, 0, 1⟩ ⟨1, 0, 0⟩ 1 1 ⟨0, 0, 1⟩ ∧ crossp ⟨0, 0, 1⟩ ⟨-1, 0, 1⟩ ≠ zerop := by
  refine ⟨⟨by norm_num, by norm_num, by simp [sm], by simp [sm, addp]⟩, ?_⟩
  intro h; have := congrArg P3.y h; norm_num [crossp, zerop] at this

/-! ### the gradients -/

def vel6 (w1 wt : P3) : Fin 6 → ℝ := ![w1.x, w1.y, w1.z, wt.x, wt.y, wt.z]

theorem seed6c (v : P3) (w1 wt : P3) : VC (fun _ => (Vec3.init v none : Vec3 6)) (vel6 w1 wt) s := by
  refine ⟨(hasDerivAt_const s v.x).congr_deriv ?_, (hasDerivAt_const s v.y).congr_deriv ?_, (hasDerivAt_const s v.z).congr_deriv ?_⟩ <;>
    simp [Val.rate, Vec3.init, vel6, Fin.sum_univ_succ]
theorem seed61 (c : ℝ → P3) (w1 wt : P3) (h : HasDerivP c w1 s) : VC (fun u => (Vec3.init (c u) (some 0) : Vec3 6)) (vel6 w1 wt) s := by
  refine ⟨h.1.congr_deriv ?_, h.2.1.congr_deriv ?_, h.2.2.congr_deriv ?_⟩ <;> simp [Val.rate, Vec3.init, vel6, Fin.sum_univ_succ]
theorem seed6t (c : ℝ → P3) (w1 wt : P3) (h : HasDerivP c wt s) : VC (fun u => (Vec3.init (c u) (some 3) : Vec3 6)) (vel6 w1 wt) s := by
  refine ⟨h.1.congr_deriv ?_, h.2.1.congr_deriv ?_, h.2.2.congr_deriv ?_⟩ <;> simp [Val.rate, Vec3.init, vel6, Fin.sum_univ_succ]

theorem rate6 (a : Val 6) (w1 wt : P3) : a.rate (vel6 w1 wt) = dotp ⟨a.j 0, a.j 1, a.j 2⟩ w1 + dotp ⟨a.j 3, a.j 4, a.j 5⟩ wt := by
  simp [Val.rate, vel6, Fin.sum_univ_succ, dotp]
  ring_nf

theorem triErrorV_track (hU : VC U d s) (hV : VC V d s) (hW : VC W d s) (hc : crossp (U s).value (V s).value ≠ zerop)
    (h0 : crossp (V s).value (W s).value ≠ zerop) (h1 : crossp (U s).value (W s).value ≠ zerop)
    (hm : dotp (U s).value (gmid (U s).value (V s).value (W s).value (range0 (U s).value (V s).value (W s).value) (range1 (U s).value (V s).value (W s).value)) ≠ 0)
    (hmc : chord (U s).value (gmid (U s).value (V s).value (W s).value (range0 (U s).value (V s).value (W s).value) (range1 (U s).value (V s).value (W s).value)) ^ 2 ≠ 1e-21)
    (hv : dotp (U s).value (V s).value ≠ 0) (hvc : chord (U s).value (V s).value ^ 2 ≠ 1e-21) :
    TC (fun u => triangulatedErrorV (U u) (V u) (W u)) d s := by
  have e : (fun u => triangulatedErrorV (U u) (V u) (W u)) = _ := funext fun u => triErrorV_uniform (U u) (V u) (W u)
  rw [e]
  obtain ⟨t0, t1⟩ := mid2Ranges_track hU hV hW hc h0 h1
  have hM : VC (fun u => mid2Point (mid2Ranges (U u) (V u) (W u)).1 (U u) (mid2Ranges (U u) (V u) (W u)).2 (V u) (W u)) d s :=
    (((hU.mulV t0).add hW).add (hV.mulV t1)).divVecC 2.0
  obtain ⟨w0, w1, w2⟩ := worsening_track t0 hU t1 hV hW
  have hA := angleError_track hU hM (by simp only [mid2Point_value]; exact hm) (by simp only [mid2Point_value]; exact hmc)
  have hB := angleError_track hU hV hv hvc
  exact (hA.mulC 2).add (hB.mul (((w0.neg.sigmoid 3 (by norm_num)).add (w1.neg.sigmoid 3 (by norm_num))).add (w2.neg.sigmoid 3 (by norm_num))))

/-- **C35**: the gradients of the error with respect to v1 and t01 are the true ones, convergent or not, also at the transitions. Except: where the geometry is degenerate
(parallel rays, a ray along the baseline, the triangulated point or v1 perpendicular to v0), and at exactly the threshold (3e-11) below which the angle is reported as 0 -/
theorem triangulated_error_gradient (v0 v1 t : P3) (hc : crossp v0 v1 ≠ zerop) (h0 : crossp v1 t ≠ zerop) (h1 : crossp v0 t ≠ zerop)
    (hm : dotp v0 (gmid v0 v1 t (range0 v0 v1 t) (range1 v0 v1 t)) ≠ 0) (hmc : chord v0 (gmid v0 v1 t (range0 v0 v1 t) (range1 v0 v1 t)) ^ 2 ≠ 1e-21)
    (hv : dotp v0 v1 ≠ 0) (hvc : chord v0 v1 ^ 2 ≠ 1e-21)
    (c1 ct : ℝ → P3) (w1 wt : P3) (s : ℝ) (e1 : c1 s = v1) (et : ct s = t) (d1 : HasDerivP c1 w1 s) (dt : HasDerivP ct wt s) :
    HasDerivAt (fun u => (triangulatedError v0 (c1 u) (ct u)).1) (dotp (triangulatedError v0 v1 t).2.1 w1 + dotp (triangulatedError v0 v1 t).2.2 wt) s := by
  subst e1 et
  have key := triErrorV_track (seed6c (s := s) v0 w1 wt) (seed61 c1 w1 wt d1) (seed6t ct w1 wt dt) hc h0 h1 hm hmc hv hvc
  unfold TC at key
  rw [rate6] at key
  exact key

/-- the case v0 = (0,0,1), v1 = (-1,0,0.6), t01 = (3,4,0), where the rays do not intersect, meets the hypotheses of `triangulated_error_gradient` -/
theorem regular_case : crossp ⟨0, 0, 1⟩ ⟨-1, 0, 3 / 5⟩ ≠ zerop ∧ crossp ⟨-1, 0, 3 / 5⟩ ⟨3, 4, 0⟩ ≠ zerop ∧ crossp ⟨0, 0, 1⟩ ⟨3, 4, 0⟩ ≠ zerop ∧
    range0 ⟨0, 0, 1⟩ ⟨-1, 0, 3 / 5⟩ ⟨3, 4, 0⟩ = 5 ∧ range1 ⟨0, 0, 1⟩ ⟨-1, 0, 3 / 5⟩ ⟨3, 4, 0⟩ = 5 ∧
    dotp ⟨0, 0, 1⟩ (gmid ⟨0, 0, 1⟩ ⟨-1, 0, 3 / 5⟩ ⟨3, 4, 0⟩ 5 5) ≠ 0 ∧ chord ⟨0, 0, 1⟩ (gmid ⟨0, 0, 1⟩ ⟨-1, 0, 3 / 5⟩ ⟨3, 4, 0⟩ 5 5) ^ 2 ≠ 1e-21 ∧
    dotp ⟨0, 0, 1⟩ ⟨-1, 0, 3 / 5⟩ ≠ 0 ∧ chord ⟨0, 0, 1⟩ ⟨-1, 0, 3 / 5⟩ ^ 2 ≠ 1e-21 := by
  have s25 : Real.sqrt 25 = 5 := by rw [show (25 : ℝ) = 5 ^ 2 by norm_num]; exact Real.sqrt_sq (by norm_num)
  refine ⟨?_, ?_, ?_, ?_, ?_, ?_, ?_, ?_, ?_⟩
  · intro h; have := congrArg P3.y h; norm_num [crossp, zerop] at this
  · intro h; have := congrArg P3.x h; norm_num [crossp, zerop] at this
  · intro h; have := congrArg P3.x h; norm_num [crossp, zerop] at this
  · norm_num [range0, len2, dotp, crossp, s25]
  · norm_num [range1, len2, dotp, crossp, s25]
  · norm_num [gmid, dotp, sm, addp]
  · rw [chord_sq]
    have h : |dotp ⟨0, 0, 1⟩ (gmid ⟨0, 0, 1⟩ ⟨-1, 0, 3 / 5⟩ ⟨3, 4, 0⟩ 5 5)| / (Real.sqrt (len2 ⟨0, 0, 1⟩) * Real.sqrt (len2 (gmid ⟨0, 0, 1⟩ ⟨-1, 0, 3 / 5⟩ ⟨3, 4, 0⟩ 5 5))) ≤ 9 / 10 := by
      have e : len2 (gmid ⟨0, 0, 1⟩ ⟨-1, 0, 3 / 5⟩ ⟨3, 4, 0⟩ 5 5) = 21 := by norm_num [gmid, dotp, sm, addp, len2]
      have e' : dotp ⟨0, 0, 1⟩ (gmid ⟨0, 0, 1⟩ ⟨-1, 0, 3 / 5⟩ ⟨3, 4, 0⟩ 5 5) = 4 := by norm_num [gmid, dotp, sm, addp]
      have e2 : len2 ⟨0, 0, 1⟩ = 1 := by norm_num [dotp, len2]
      have : (9 / 2 : ℝ) ≤ Real.sqrt 21 := Real.le_sqrt_of_sq_le (by norm_num)
      rw [e, e', e2, Real.sqrt_one, one_mul, abs_of_pos (by norm_num), div_le_iff₀ (by linarith)]
      linarith
    intro h2
    norm_num at h2
    linarith
  · norm_num [dotp]
  · rw [chord_sq]
    have h : |dotp ⟨0, 0, 1⟩ ⟨-1, 0, 3 / 5⟩| / (Real.sqrt (len2 ⟨0, 0, 1⟩) * Real.sqrt (len2 ⟨-1, 0, 3 / 5⟩)) ≤ 9 / 10 := by
      have e : len2 ⟨-1, 0, 3 / 5⟩ = 34 / 25 := by norm_num [dotp, len2]
      have e' : dotp ⟨0, 0, 1⟩ ⟨-1, 0, 3 / 5⟩ = 3 / 5 := by norm_num [dotp]
      have e2 : len2 ⟨0, 0, 1⟩ = 1 := by norm_num [dotp, len2]
      have : (1 : ℝ) ≤ Real.sqrt (34 / 25) := Real.le_sqrt_of_sq_le (by norm_num)
      rw [e, e', e2, Real.sqrt_one, one_mul, abs_of_pos (by norm_num), div_le_iff₀ (by linarith)]
      linarith
    intro h2
    norm_num at h2
    linarith

end Mrcal.Tri
