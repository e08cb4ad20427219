import Verif.Props.RodriguesInvProps
/-
C27: the gradient reported by r_from_R().
-/
namespace Mrcal.Pose

theorem bilinear_core (c s w1 w2 : ℝ) (u a b : P3) (hcs : s ^ 2 + c ^ 2 = 1) (hu : u.x * u.x + u.y * u.y + u.z * u.z = 1)
    (pa : u.x * a.x + u.y * a.y + u.z * a.z = 0) (pb : u.x * b.x + u.y * b.y + u.z * b.z = 0) :
    let f (w : ℝ) (u' : P3) : M3 :=
      { a00 := -s * w + s * w * u.x * u.x + (1 - c) * (u'.x * u.x + u.x * u'.x)
        a01 := s * w * u.x * u.y + (1 - c) * (u'.x * u.y + u.x * u'.y) - (c * w * u.z + s * u'.z)
        a02 := s * w * u.x * u.z + (1 - c) * (u'.x * u.z + u.x * u'.z) + (c * w * u.y + s * u'.y)
        a10 := s * w * u.x * u.y + (1 - c) * (u'.x * u.y + u.x * u'.y) + (c * w * u.z + s * u'.z)
        a11 := -s * w + s * w * u.y * u.y + (1 - c) * (u'.y * u.y + u.y * u'.y)
        a12 := s * w * u.y * u.z + (1 - c) * (u'.y * u.z + u.y * u'.z) - (c * w * u.x + s * u'.x)
        a20 := s * w * u.x * u.z + (1 - c) * (u'.x * u.z + u.x * u'.z) - (c * w * u.y + s * u'.y)
        a21 := s * w * u.y * u.z + (1 - c) * (u'.y * u.z + u.y * u'.z) + (c * w * u.x + s * u'.x)
        a22 := -s * w + s * w * u.z * u.z + (1 - c) * (u'.z * u.z + u.z * u'.z) }
    dot9 (f w1 a) (f w2 b) = 2 * w1 * w2 + 4 * (1 - c) * (a.x * b.x + a.y * b.y + a.z * b.z) := by
  intro f
  simp only [f, dot9]
  linear_combination (w1 * w2 * (s ^ 2 * (u.x * u.x + u.y * u.y + u.z * u.z - 1) + 2 * c ^ 2) + 2 * (a.x * b.x + a.y * b.y + a.z * b.z) * (1 - c) ^ 2) * hu
    + (2 * w1 * w2 + 2 * (a.x * b.x + a.y * b.y + a.z * b.z)) * hcs
    + (w1 * (-2 * s * (1 - c) * (1 - (u.x * u.x + u.y * u.y + u.z * u.z)) + 2 * c * s) + 2 * (1 - c) ^ 2 * (u.x * a.x + u.y * a.y + u.z * a.z)) * pb
    + (w2 * (-2 * s * (1 - c) * (1 - (u.x * u.x + u.y * u.y + u.z * u.z)) + 2 * c * s)) * pa

/-- the metric of the rotation vectors -/
theorem gram_nominal (r : P3) (h : dblEpsilon * dblEpsilon ≤ norm2 r) (v w : P3) :
    let u := axis r
    let k := 4 * (1 - Real.cos (mag3 r)) / (mag3 r * mag3 r)
    let wv := u.x * v.x + u.y * v.y + u.z * v.z
    let ww := u.x * w.x + u.y * w.y + u.z * w.z
    dot9 (comb (R_from_r_J r) v) (comb (R_from_r_J r) w) = 2 * wv * ww + k * (v.x * w.x + v.y * w.y + v.z * w.z - wv * ww) := by
  intro u k wv ww
  have hm := mag3_ne r h
  have hu : u.x * u.x + u.y * u.y + u.z * u.z = 1 := axis_unit r hm
  rw [R_from_r_J_nominal r h v, R_from_r_J_nominal r h w]
  have key := bilinear_core (Real.cos (mag3 r)) (Real.sin (mag3 r)) wv ww u
    ⟨1 / mag3 r * (v.x - u.x * wv), 1 / mag3 r * (v.y - u.y * wv), 1 / mag3 r * (v.z - u.z * wv)⟩
    ⟨1 / mag3 r * (w.x - u.x * ww), 1 / mag3 r * (w.y - u.y * ww), 1 / mag3 r * (w.z - u.z * ww)⟩
    (Real.sin_sq_add_cos_sq _) hu
    (by simp only [wv]; linear_combination -(1 / mag3 r) * (u.x * v.x + u.y * v.y + u.z * v.z) * hu)
    (by simp only [ww]; linear_combination -(1 / mag3 r) * (u.x * w.x + u.y * w.y + u.z * w.z) * hu)
  refine Eq.trans key ?_
  simp only [k]
  have hw1 : u.x * v.x + u.y * v.y + u.z * v.z = wv := rfl
  have hw2 : u.x * w.x + u.y * w.y + u.z * w.z = ww := rfl
  clear_value wv ww u
  generalize Real.cos (mag3 r) = c
  have e : 4 * (1 - c) / (mag3 r * mag3 r) = 4 * (1 - c) * (1 / mag3 r) ^ 2 := by field_simp
  rw [e]
  generalize 1 / mag3 r = it
  linear_combination 4 * (1 - c) * it ^ 2 * (wv * ww * hu - wv * hw2 - ww * hw1)

theorem comb_slices (D : M3 × M3 × M3) : comb D ⟨1, 0, 0⟩ = D.1 ∧ comb D ⟨0, 1, 0⟩ = D.2.1 ∧ comb D ⟨0, 0, 1⟩ = D.2.2 := by
  refine ⟨?_, ?_, ?_⟩ <;> ext <;> simp [comb]

/-- J is a left inverse, if the metric isn't singular -/
theorem J_left_inverse (R : M3) (v : P3) :
    let D := R_from_r_J (r_from_R R)
    let J := r_from_R_J R
    let m : Fin 6 → ℝ := ![dot9 D.1 D.1, dot9 D.1 D.2.1, dot9 D.1 D.2.2, dot9 D.2.1 D.2.1, dot9 D.2.1 D.2.2, dot9 D.2.2 D.2.2]
    (cofactorsSym3 m).2 ≠ 0 →
    dot9 J.1 (comb D v) = v.x ∧ dot9 J.2.1 (comb D v) = v.y ∧ dot9 J.2.2 (comb D v) = v.z := by
  intro D J m hdet
  have lin : ∀ (c0 c1 c2 k : ℝ),
      dot9 ⟨k * (c0 * D.1.a00 + c1 * D.2.1.a00 + c2 * D.2.2.a00), k * (c0 * D.1.a01 + c1 * D.2.1.a01 + c2 * D.2.2.a01), k * (c0 * D.1.a02 + c1 * D.2.1.a02 + c2 * D.2.2.a02),
        k * (c0 * D.1.a10 + c1 * D.2.1.a10 + c2 * D.2.2.a10), k * (c0 * D.1.a11 + c1 * D.2.1.a11 + c2 * D.2.2.a11), k * (c0 * D.1.a12 + c1 * D.2.1.a12 + c2 * D.2.2.a12),
        k * (c0 * D.1.a20 + c1 * D.2.1.a20 + c2 * D.2.2.a20), k * (c0 * D.1.a21 + c1 * D.2.1.a21 + c2 * D.2.2.a21), k * (c0 * D.1.a22 + c1 * D.2.1.a22 + c2 * D.2.2.a22)⟩
        (comb D v) =
      k * ((c0 * m 0 + c1 * m 1 + c2 * m 2) * v.x + (c0 * m 1 + c1 * m 3 + c2 * m 4) * v.y + (c0 * m 2 + c1 * m 4 + c2 * m 5) * v.z) := by
    intro c0 c1 c2 k
    simp [m, dot9, comb]
    ring
  have hJ1 := lin ((cofactorsSym3 m).1 0) ((cofactorsSym3 m).1 1) ((cofactorsSym3 m).1 2) (1 / (cofactorsSym3 m).2)
  have hJ2 := lin ((cofactorsSym3 m).1 1) ((cofactorsSym3 m).1 3) ((cofactorsSym3 m).1 4) (1 / (cofactorsSym3 m).2)
  have hJ3 := lin ((cofactorsSym3 m).1 2) ((cofactorsSym3 m).1 4) ((cofactorsSym3 m).1 5) (1 / (cofactorsSym3 m).2)
  refine ⟨?_, ?_, ?_⟩
  · refine Eq.trans hJ1 ?_
    rw [one_div, inv_mul_eq_div, div_eq_iff hdet]
    simp [cofactorsSym3]
    ring
  · refine Eq.trans hJ2 ?_
    rw [one_div, inv_mul_eq_div, div_eq_iff hdet]
    simp [cofactorsSym3]
    ring
  · refine Eq.trans hJ3 ?_
    rw [one_div, inv_mul_eq_div, div_eq_iff hdet]
    simp [cofactorsSym3]
    ring

/-- the determinant -/
theorem gram_det (r : P3) (h : dblEpsilon * dblEpsilon ≤ norm2 r) (hc : Real.cos (mag3 r) ≠ 1) :
    let D := R_from_r_J r
    let m : Fin 6 → ℝ := ![dot9 D.1 D.1, dot9 D.1 D.2.1, dot9 D.1 D.2.2, dot9 D.2.1 D.2.1, dot9 D.2.1 D.2.2, dot9 D.2.2 D.2.2]
    (cofactorsSym3 m).2 ≠ 0 := by
  intro D m
  have hm := mag3_ne r h
  have hu := axis_unit r hm
  obtain ⟨e0, e1, e2⟩ := comb_slices D
  have g := gram_nominal r h
  have g00 := g ⟨1, 0, 0⟩ ⟨1, 0, 0⟩
  have g01 := g ⟨1, 0, 0⟩ ⟨0, 1, 0⟩
  have g02 := g ⟨1, 0, 0⟩ ⟨0, 0, 1⟩
  have g11 := g ⟨0, 1, 0⟩ ⟨0, 1, 0⟩
  have g12 := g ⟨0, 1, 0⟩ ⟨0, 0, 1⟩
  have g22 := g ⟨0, 0, 1⟩ ⟨0, 0, 1⟩
  change let u := axis r; _ at g00
  have k0 : 4 * (1 - Real.cos (mag3 r)) / (mag3 r * mag3 r) ≠ 0 := by
    apply div_ne_zero
    · intro h0
      apply hc
      linarith
    · exact mul_ne_zero hm hm
  generalize 4 * (1 - Real.cos (mag3 r)) / (mag3 r * mag3 r) = k at *
  rw [show comb (R_from_r_J r) ⟨1, 0, 0⟩ = D.1 from e0] at g00 g01 g02
  rw [show comb (R_from_r_J r) ⟨0, 1, 0⟩ = D.2.1 from e1] at g01 g11 g12
  rw [show comb (R_from_r_J r) ⟨0, 0, 1⟩ = D.2.2 from e2] at g02 g12 g22
  simp only [mul_one, mul_zero, add_zero, zero_add] at g00 g01 g02 g11 g12 g22
  generalize axis r = u at *
  have : (cofactorsSym3 m).2 = 2 * k ^ 2 := by
    simp only [cofactorsSym3, m]
    simp [g00, g01, g02, g11, g12, g22]
    linear_combination k ^ 2 * (2 - k) * hu
  rw [this]
  positivity

theorem gram_det_zero :
    let D := R_from_r_J ⟨0, 0, 0⟩
    let m : Fin 6 → ℝ := ![dot9 D.1 D.1, dot9 D.1 D.2.1, dot9 D.1 D.2.2, dot9 D.2.1 D.2.1, dot9 D.2.1 D.2.2, dot9 D.2.2 D.2.2]
    (cofactorsSym3 m).2 ≠ 0 := by
  intro D m
  have J0 : D = (⟨0, 0, 0, 0, 0, -1, 0, 1, 0⟩, ⟨0, 0, 1, 0, 0, 0, -1, 0, 0⟩, ⟨0, -1, 0, 1, 0, 0, 0, 0, 0⟩) := by
    simp only [D]
    unfold R_from_r_J
    have : norm2 ⟨0, 0, 0⟩ < dblEpsilon * dblEpsilon := by simpa [norm2] using eps_pos
    simp only [this, if_true]
  simp [m, J0, cofactorsSym3, dot9]

/-- the vector, in the nominal case -/
theorem r_from_R_form (R : M3) (h : IsRot R) (hs : rEps ^ 2 < 1 - ((R.a00 + R.a11 + R.a22 - 1) / 2) ^ 2) :
    let c := (R.a00 + R.a11 + R.a22 - 1) / 2
    r_from_R R = ⟨(R.a21 - R.a12) / (2 * Real.sqrt (1 - c ^ 2)) * Real.arccos c,
                  (R.a02 - R.a20) / (2 * Real.sqrt (1 - c ^ 2)) * Real.arccos c,
                  (R.a10 - R.a01) / (2 * Real.sqrt (1 - c ^ 2)) * Real.arccos c⟩ := by
  intro c
  have he : (0 : ℝ) < rEps := by unfold rEps; norm_num
  obtain ⟨hn, hm1, hp1⟩ := h.norm2u
  have hcos : Real.cos (Real.arccos c) = c := Real.cos_arccos hm1 hp1
  have hsin : Real.sin (Real.arccos c) = Real.sqrt (1 - c ^ 2) := Real.sin_arccos c
  have hpos : 0 < 1 - c ^ 2 := lt_trans (by positivity) hs
  have e4 : Real.sqrt (4 * (1 - c ^ 2)) = 2 * Real.sqrt (1 - c ^ 2) := by
    rw [show 4 * (1 - c ^ 2) = 2 ^ 2 * (1 - c ^ 2) by ring, Real.sqrt_mul (by positivity), Real.sqrt_sq (by norm_num)]
  unfold r_from_R
  simp only [hn]
  have hs' : rEps ^ 2 < 1 - c ^ 2 := hs
  have hA : 4 * (1 - c ^ 2) > 4 * rEps * rEps := by
    have : 4 * rEps * rEps = 4 * rEps ^ 2 := by ring
    rw [this]; linarith
  have hB : 1 - |c| > rEps * rEps / 2 := by
    have h1 : |c| ≤ 1 := abs_le.mpr ⟨hm1, hp1⟩
    have h2 : |c| ^ 2 = c ^ 2 := sq_abs c
    nlinarith [abs_nonneg c]
  rw [if_pos ⟨hA, hB⟩]
  have e5 : Real.sqrt (4 * (1 - c ^ 2)) / 2 = Real.sin (Real.arccos c) := by rw [e4, hsin]; ring
  have key := th_eq (Real.arccos c) (Real.arccos_nonneg c) (Real.arccos_le_pi c)
  rw [hcos] at key
  have e6 : (if Real.sqrt (4 * (1 - c ^ 2)) / 2 > Real.sqrt 2 / 2 then Real.arccos c
      else if c > 0 then Real.arcsin (Real.sqrt (4 * (1 - c ^ 2)) / 2) else Real.pi - Real.arcsin (Real.sqrt (4 * (1 - c ^ 2)) / 2)) = Real.arccos c := by
    rw [e5]; exact key
  change P3.mk _ _ _ = _
  simp only [show (R.a00 + R.a11 + R.a22 - 1) / 2 = c from rfl] at *
  rw [e6, e4]

/-- the sum over all elements -/
theorem dot9_sum (A B : M3) : dot9 A B = ∑ i, ∑ j, toMat A i j * toMat B i j := by
  simp [dot9, toMat, Fin.sum_univ_three]
  ring

/-- **C27**: r_from_R() moves along any path of rotation matrices with the velocity J R' reported by its gradient. For each rotation whose angle has a sine > 1e-8 -/
theorem r_from_R_gradient (R : ℝ → M3) (R' : M3) (t : ℝ) (hrot : ∀ s, IsRot (R s)) (hR : HasDerivM R R' t)
    (hs : rEps ^ 2 < 1 - (((R t).a00 + (R t).a11 + (R t).a22 - 1) / 2) ^ 2) :
    HasDerivP (fun s => r_from_R (R s))
      ⟨∑ i, ∑ j, toMat (r_from_R_J (R t)).1 i j * toMat R' i j,
       ∑ i, ∑ j, toMat (r_from_R_J (R t)).2.1 i j * toMat R' i j,
       ∑ i, ∑ j, toMat (r_from_R_J (R t)).2.2 i j * toMat R' i j⟩ t := by
  have he : (0 : ℝ) < rEps := by unfold rEps; norm_num
  have hR0 := hR
  obtain ⟨h00, h01, h02, h10, h11, h12, h20, h21, h22⟩ := hR
  have hc : HasDerivAt (fun s => ((R s).a00 + (R s).a11 + (R s).a22 - 1) / 2) ((R'.a00 + R'.a11 + R'.a22) / 2) t :=
    ((((h00.add h11).add h22)).sub_const 1).div_const 2
  -- the condition is open
  have ev : ∀ᶠ s in nhds t, rEps ^ 2 < 1 - (((R s).a00 + (R s).a11 + (R s).a22 - 1) / 2) ^ 2 :=
    (continuousAt_const.sub (hc.continuousAt.pow 2)).eventually_const_lt hs
  -- r_from_R is differentiable
  have hpos : (0 : ℝ) < 1 - (((R t).a00 + (R t).a11 + (R t).a22 - 1) / 2) ^ 2 := lt_trans (by positivity) hs
  have hdiff : ∃ r', HasDerivP (fun s => r_from_R (R s)) r' t := by
    have hsq : DifferentiableAt ℝ (fun s => 2 * Real.sqrt (1 - (((R s).a00 + (R s).a11 + (R s).a22 - 1) / 2) ^ 2)) t :=
      (((hc.pow 2).const_sub 1).sqrt hpos.ne').differentiableAt.const_mul 2
    have hac : DifferentiableAt ℝ (fun s => Real.arccos (((R s).a00 + (R s).a11 + (R s).a22 - 1) / 2)) t := by
      have h1 : ((R t).a00 + (R t).a11 + (R t).a22 - 1) / 2 ≠ -1 := by
        intro h; rw [h] at hpos; norm_num at hpos
      have h2 : ((R t).a00 + (R t).a11 + (R t).a22 - 1) / 2 ≠ 1 := by
        intro h; rw [h] at hpos; norm_num at hpos
      have := (Real.hasDerivAt_arccos h1 h2).comp t hc
      exact this.differentiableAt
    have hne : 2 * Real.sqrt (1 - (((R t).a00 + (R t).a11 + (R t).a22 - 1) / 2) ^ 2) ≠ 0 := by
      have := Real.sqrt_pos.mpr hpos
      positivity
    have d1 := (((h21.sub h12).differentiableAt).div hsq hne).mul hac
    have d2 := (((h02.sub h20).differentiableAt).div hsq hne).mul hac
    have d3 := (((h10.sub h01).differentiableAt).div hsq hne).mul hac
    refine ⟨⟨_, _, _⟩, d1.hasDerivAt.congr_of_eventuallyEq ?_, d2.hasDerivAt.congr_of_eventuallyEq ?_, d3.hasDerivAt.congr_of_eventuallyEq ?_⟩
    · filter_upwards [ev] with s hs
      exact congrArg P3.x (r_from_R_form (R s) (hrot s) hs)
    · filter_upwards [ev] with s hs
      exact congrArg P3.y (r_from_R_form (R s) (hrot s) hs)
    · filter_upwards [ev] with s hs
      exact congrArg P3.z (r_from_R_form (R s) (hrot s) hs)
  obtain ⟨r', hr'⟩ := hdiff
  -- the angle is nominal
  obtain ⟨-, hm1, hp1⟩ := (hrot t).norm2u
  have hgood : ∀ s, rEps ^ 2 < 1 - (((R s).a00 + (R s).a11 + (R s).a22 - 1) / 2) ^ 2 →
      dblEpsilon ≤ mag3 (r_from_R (R s)) ∧ toMat (R s) = rod (r_from_R (R s)) ∧
      Real.cos (mag3 (r_from_R (R s))) ≠ 1 := by
    intro s hs
    have e1 := (R_from_r_from_R (R s) (hrot s) hs).1
    have hge : dblEpsilon ≤ mag3 (r_from_R (R s)) := by
      by_contra hlt
      have := (R_from_r_meaning (r_from_R (R s))).2 (not_le.mp hlt)
      rw [this] at e1
      rw [← e1] at hs
      norm_num [identityR] at hs
      nlinarith
    have e2 := (R_from_r_meaning (r_from_R (R s))).1 (Or.inr hge)
    rw [e1] at e2
    refine ⟨hge, e2, ?_⟩
    intro hcos
    have htr := (R_from_r_axis (r_from_R (R s))).2 hge
    rw [e1, hcos] at htr
    rw [htr] at hs
    norm_num at hs
    nlinarith
  obtain ⟨hge, hrod, hcos⟩ := hgood t hs
  have de : 0 < dblEpsilon := by unfold dblEpsilon; positivity
  have hn : dblEpsilon * dblEpsilon ≤ norm2 (r_from_R (R t)) := by
    rw [norm2_eq]; exact mul_le_mul hge hge de.le (de.le.trans hge)
  -- R' is what the gradient of R_from_r says
  have eR' : R' = comb (R_from_r_J (r_from_R (R t))) r' := by
    apply toMat_inj
    ext i j
    have g := R_from_r_gradient (fun s => r_from_R (R s)) r' t hr' hge i j
    have evr : (fun s => toMat (R s) i j) =ᶠ[nhds t] fun s => rod (r_from_R (R s)) i j := by
      filter_upwards [ev] with s hs
      rw [(hgood s hs).2.1]
    have g2 := g.congr_of_eventuallyEq evr
    have g3 : HasDerivAt (fun s => toMat (R s) i j) (toMat R' i j) t := by
      fin_cases i <;> fin_cases j
      · exact h00
      · exact h01
      · exact h02
      · exact h10
      · exact h11
      · exact h12
      · exact h20
      · exact h21
      · exact h22
    exact g3.unique g2
  obtain ⟨j1, j2, j3⟩ := J_left_inverse (R t) r' (gram_det _ hn hcos)
  rw [← dot9_sum, ← dot9_sum, ← dot9_sum, eR', j1, j2, j3]
  exact hr'

/-- spinning around z, as this passes 90deg -/
example : ∃ (R : ℝ → M3) (R' : M3) (t : ℝ), (∀ s, IsRot (R s)) ∧ HasDerivM R R' t ∧ R'.a00 ≠ 0 ∧
    rEps ^ 2 < 1 - (((R t).a00 + (R t).a11 + (R t).a22 - 1) / 2) ^ 2 := by
  refine ⟨fun s => ⟨Real.cos s, -Real.sin s, 0, Real.sin s, Real.cos s, 0, 0, 0, 1⟩,
    ⟨-Real.sin (Real.pi / 2), -Real.cos (Real.pi / 2), 0, Real.cos (Real.pi / 2), -Real.sin (Real.pi / 2), 0, 0, 0, 0⟩, Real.pi / 2, ?_, ?_, ?_, ?_⟩
  · intro s
    have h := rodM_rot (Real.cos s) (Real.sin s) ⟨0, 0, 1⟩ (Real.sin_sq_add_cos_sq s) (by norm_num)
    simpa [rodM] using h
  · exact ⟨Real.hasDerivAt_cos _, (Real.hasDerivAt_sin _).neg, hasDerivAt_const _ _, Real.hasDerivAt_sin _, Real.hasDerivAt_cos _, hasDerivAt_const _ _,
      hasDerivAt_const _ _, hasDerivAt_const _ _, hasDerivAt_const _ _⟩
  · simp
  · norm_num [rEps]

/-- **C27**: at the identity, and at the 180deg rotations (where there's no derivative: r jumps to -r) the reported gradient still inverts
the gradient of R_from_r() -/
theorem r_from_R_gradient_sym (R : M3) (h : IsRot R) (hsym : transpose R = R) (v : P3) :
    let J := r_from_R_J R
    let D := comb (R_from_r_J (r_from_R R)) v
    dot9 J.1 D = v.x ∧ dot9 J.2.1 D = v.y ∧ dot9 J.2.2 D = v.z := by
  apply J_left_inverse
  have hgood := R_from_r_from_R_sym R h hsym
  by_cases hge : dblEpsilon ≤ mag3 (r_from_R R)
  · have de : 0 < dblEpsilon := by unfold dblEpsilon; positivity
    have hn : dblEpsilon * dblEpsilon ≤ norm2 (r_from_R R) := by
      rw [norm2_eq]; exact mul_le_mul hge hge de.le (de.le.trans hge)
    apply gram_det _ hn
    intro hcos
    -- then R = I, and r_from_R = 0
    have hz : R = identityR := by
      rw [← hgood, R_from_r_nominal _ hn, hcos]
      have hsin : Real.sin (mag3 (r_from_R R)) = 0 := by
        have := Real.sin_sq_add_cos_sq (mag3 (r_from_R R))
        rw [hcos] at this
        nlinarith
      rw [hsin]
      simp [rodM, identityR]
    have : r_from_R R = ⟨0, 0, 0⟩ := by
      rw [hz]
      unfold r_from_R identityR
      norm_num [rEps]
    rw [this] at hge
    have h0 : mag3 ⟨0, 0, 0⟩ = 0 := by simp [mag3]
    rw [h0] at hge
    linarith
  · have hz : R = identityR := by rw [← hgood]; exact (R_from_r_meaning _).2 (not_le.mp hge)
    have : r_from_R R = ⟨0, 0, 0⟩ := by
      rw [hz]
      unfold r_from_R identityR
      norm_num [rEps]
    rw [this]
    exact gram_det_zero

/-- 180deg around z -/
example : IsRot ⟨-1, 0, 0, 0, -1, 0, 0, 0, 1⟩ ∧ transpose ⟨-1, 0, 0, 0, -1, 0, 0, 0, 1⟩ = ⟨-1, 0, 0, 0, -1, 0, 0, 0, 1⟩ := by
  refine ⟨?_, rfl⟩
  have h := rodM_rot (-1) 0 ⟨0, 0, 1⟩ (by norm_num) (by norm_num)
  simpa [rodM] using h

end Mrcal.Pose
