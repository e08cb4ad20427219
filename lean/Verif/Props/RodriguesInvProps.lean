import Verif.Props.RotateProps
/-
C27: r_from_R() inverts R_from_r().
-/
namespace Mrcal.Pose

/-! ### facts about rotation matrices -/

/-- a rotation matrix is its own cofactor matrix -/
theorem IsRot.cof {R : M3} (h : IsRot R) :
    R.a00 = R.a11 * R.a22 - R.a12 * R.a21 ∧ R.a01 = R.a12 * R.a20 - R.a10 * R.a22 ∧ R.a02 = R.a10 * R.a21 - R.a11 * R.a20 ∧
    R.a10 = R.a02 * R.a21 - R.a01 * R.a22 ∧ R.a11 = R.a00 * R.a22 - R.a02 * R.a20 ∧ R.a12 = R.a01 * R.a20 - R.a00 * R.a21 ∧
    R.a20 = R.a01 * R.a12 - R.a02 * R.a11 ∧ R.a21 = R.a02 * R.a10 - R.a00 * R.a12 ∧ R.a22 = R.a00 * R.a11 - R.a01 * R.a10 := by
  obtain ⟨ho, hd⟩ := h
  obtain ⟨c0, c1, c2, c01, c02, c12⟩ := ho.cols
  have hd' : R.a00 * R.a11 * R.a22 - R.a00 * R.a12 * R.a21 - R.a01 * R.a10 * R.a22 + R.a01 * R.a12 * R.a20 + R.a02 * R.a10 * R.a21 - R.a02 * R.a11 * R.a20 = 1 := by
    simpa [toMat, Matrix.det_fin_three] using hd
  obtain ⟨r0, r1, r2, r01, r02, r12⟩ := ho.rows
  -- cof(R) = det(R) R when R is orthogonal: multiply row i of cof by RᵗR = I
  refine ⟨?_, ?_, ?_, ?_, ?_, ?_, ?_, ?_, ?_⟩
  · linear_combination -R.a00 * hd' + (R.a11 * R.a22 - R.a12 * R.a21) * r0 + (R.a02 * R.a21 - R.a01 * R.a22) * r01 + (R.a01 * R.a12 - R.a02 * R.a11) * r02
  · linear_combination -R.a01 * hd' + (R.a12 * R.a20 - R.a10 * R.a22) * r0 + (R.a00 * R.a22 - R.a02 * R.a20) * r01 + (R.a02 * R.a10 - R.a00 * R.a12) * r02
  · linear_combination -R.a02 * hd' + (R.a10 * R.a21 - R.a11 * R.a20) * r0 + (R.a01 * R.a20 - R.a00 * R.a21) * r01 + (R.a00 * R.a11 - R.a01 * R.a10) * r02
  · linear_combination -R.a10 * hd' + (R.a11 * R.a22 - R.a12 * R.a21) * r01 + (R.a02 * R.a21 - R.a01 * R.a22) * r1 + (R.a01 * R.a12 - R.a02 * R.a11) * r12
  · linear_combination -R.a11 * hd' + (R.a12 * R.a20 - R.a10 * R.a22) * r01 + (R.a00 * R.a22 - R.a02 * R.a20) * r1 + (R.a02 * R.a10 - R.a00 * R.a12) * r12
  · linear_combination -R.a12 * hd' + (R.a10 * R.a21 - R.a11 * R.a20) * r01 + (R.a01 * R.a20 - R.a00 * R.a21) * r1 + (R.a00 * R.a11 - R.a01 * R.a10) * r12
  · linear_combination -R.a20 * hd' + (R.a11 * R.a22 - R.a12 * R.a21) * r02 + (R.a02 * R.a21 - R.a01 * R.a22) * r12 + (R.a01 * R.a12 - R.a02 * R.a11) * r2
  · linear_combination -R.a21 * hd' + (R.a12 * R.a20 - R.a10 * R.a22) * r02 + (R.a00 * R.a22 - R.a02 * R.a20) * r12 + (R.a02 * R.a10 - R.a00 * R.a12) * r2
  · linear_combination -R.a22 * hd' + (R.a10 * R.a21 - R.a11 * R.a20) * r02 + (R.a01 * R.a20 - R.a00 * R.a21) * r12 + (R.a00 * R.a11 - R.a01 * R.a10) * r2

/-- u uᵗ = (1+tr) (R + Rᵗ + (1-tr) I) -/
theorem IsRot.outer {R : M3} (h : IsRot R) :
    let tr := R.a00 + R.a11 + R.a22
    let ux := R.a21 - R.a12
    let uy := R.a02 - R.a20
    let uz := R.a10 - R.a01
    ux * ux = (1 + tr) * (2 * R.a00 + 1 - tr) ∧ uy * uy = (1 + tr) * (2 * R.a11 + 1 - tr) ∧ uz * uz = (1 + tr) * (2 * R.a22 + 1 - tr) ∧
    ux * uy = (1 + tr) * (R.a01 + R.a10) ∧ ux * uz = (1 + tr) * (R.a02 + R.a20) ∧ uy * uz = (1 + tr) * (R.a12 + R.a21) := by
  obtain ⟨k00, k01, k02, k10, k11, k12, k20, k21, k22⟩ := h.cof
  obtain ⟨c0, c1, c2, c01, c02, c12⟩ := h.1.cols
  obtain ⟨r0, r1, r2, r01, r02, r12⟩ := h.1.rows
  refine ⟨?_, ?_, ?_, ?_, ?_, ?_⟩
  · linear_combination r1 + r2 - c0 - 2 * k00
  · linear_combination r0 + r2 - c1 - 2 * k11
  · linear_combination r0 + r1 - c2 - 2 * k22
  · linear_combination -r01 - c01 + 0 * k01 - k10 - k01
  · linear_combination -r02 - c02 - k20 - k02
  · linear_combination -r12 - c12 - k21 - k12

/-- the length of u, and the range of the cosine -/
theorem IsRot.norm2u {R : M3} (h : IsRot R) :
    let c := (R.a00 + R.a11 + R.a22 - 1) / 2
    (R.a21 - R.a12) * (R.a21 - R.a12) + (R.a02 - R.a20) * (R.a02 - R.a20) + (R.a10 - R.a01) * (R.a10 - R.a01) = 4 * (1 - c ^ 2) ∧
    -1 ≤ c ∧ c ≤ 1 := by
  intro c
  obtain ⟨o1, o2, o3, -, -, -⟩ := h.outer
  have e : (R.a21 - R.a12) * (R.a21 - R.a12) + (R.a02 - R.a20) * (R.a02 - R.a20) + (R.a10 - R.a01) * (R.a10 - R.a01) = 4 * (1 - c ^ 2) := by
    simp only [c]
    linear_combination o1 + o2 + o3
  have : 0 ≤ 4 * (1 - c ^ 2) := by
    rw [← e]; nlinarith [sq_nonneg (R.a21 - R.a12), sq_nonneg (R.a02 - R.a20), sq_nonneg (R.a10 - R.a01)]
  exact ⟨e, by nlinarith, by nlinarith⟩

/-- the angle selected by the three-way choice is the angle -/
theorem th_eq (θ : ℝ) (h0 : 0 ≤ θ) (hpi : θ ≤ Real.pi) :
    (if Real.sin θ > Real.sqrt 2 / 2 then Real.arccos (Real.cos θ)
     else if Real.cos θ > 0 then Real.arcsin (Real.sin θ) else Real.pi - Real.arcsin (Real.sin θ)) = θ := by
  split
  · exact Real.arccos_cos h0 hpi
  · split
    · rename_i _ hc
      have : θ < Real.pi / 2 := by
        by_contra hn
        have := Real.cos_nonpos_of_pi_div_two_le_of_le (not_lt.mp hn) (by linarith [Real.pi_pos])
        linarith
      exact Real.arcsin_sin (by linarith [Real.pi_pos]) this.le
    · rename_i _ hc
      have : Real.pi / 2 ≤ θ := by
        by_contra hn
        have := Real.cos_pos_of_mem_Ioo ⟨by linarith [Real.pi_pos], not_le.mp hn⟩
        exact hc this
      rw [← Real.sin_pi_sub, Real.arcsin_sin (by linarith [Real.pi_pos]) (by linarith)]
      ring

theorem sqrt_four_sq (s : ℝ) (h : 0 ≤ s) : Real.sqrt (4 * s ^ 2) = 2 * s := by
  rw [show 4 * s ^ 2 = (2 * s) ^ 2 by ring, Real.sqrt_sq (by linarith)]

/-- r_from_R() of an (angle, axis) matrix -/
theorem r_from_R_rodM (θ : ℝ) (u : P3) (hu : u.x * u.x + u.y * u.y + u.z * u.z = 1) (h0 : 0 ≤ θ) (hpi : θ ≤ Real.pi) (hs : rEps < Real.sin θ) :
    r_from_R (rodM (Real.cos θ) (Real.sin θ) u) = ⟨u.x * θ, u.y * θ, u.z * θ⟩ := by
  have he : (0 : ℝ) < rEps := by unfold rEps; norm_num
  have hspos : 0 < Real.sin θ := he.trans hs
  set c := Real.cos θ with hc
  set s := Real.sin θ with hsd
  have hcs : s ^ 2 + c ^ 2 = 1 := Real.sin_sq_add_cos_sq θ
  have e1 : (1 - c) * u.y * u.z + s * u.x - ((1 - c) * u.y * u.z - s * u.x) = 2 * s * u.x := by ring
  have e2 : (1 - c) * u.x * u.z + s * u.y - ((1 - c) * u.x * u.z - s * u.y) = 2 * s * u.y := by ring
  have e3 : (1 - c) * u.x * u.y + s * u.z - ((1 - c) * u.x * u.y - s * u.z) = 2 * s * u.z := by ring
  have etr : (c + (1 - c) * u.x * u.x + (c + (1 - c) * u.y * u.y) + (c + (1 - c) * u.z * u.z) - 1) / 2 = c := by
    linear_combination (1 - c) * hu / 2
  have en : 2 * s * u.x * (2 * s * u.x) + 2 * s * u.y * (2 * s * u.y) + 2 * s * u.z * (2 * s * u.z) = 4 * s ^ 2 := by
    linear_combination 4 * s ^ 2 * hu
  unfold r_from_R
  simp only [rodM, e1, e2, e3, etr, en, sqrt_four_sq s hspos.le]
  have hA : 4 * s ^ 2 > 4 * rEps * rEps := by nlinarith
  have hB : 1 - |c| > rEps * rEps / 2 := by
    have h1 : |c| ≤ 1 := Real.abs_cos_le_one θ
    have h2 : |c| ^ 2 = c ^ 2 := sq_abs c
    nlinarith [abs_nonneg c]
  rw [if_pos ⟨hA, hB⟩]
  have e4 : 2 * s / 2 = s := by ring
  rw [e4, th_eq θ h0 hpi]
  have hs0 : s ≠ 0 := hspos.ne'
  ext
  · simp only []; field_simp
  · simp only []; field_simp
  · simp only []; field_simp

theorem rEps_gt : dblEpsilon < rEps := by unfold dblEpsilon rEps; norm_num

/-- **C27**: r_from_R(R_from_r(r)) = r, for each angle in (0,π) whose sine is > 1e-8, and for r=0 -/
theorem r_from_R_from_r (r : P3) (hpi : mag3 r ≤ Real.pi) (h : rEps < Real.sin (mag3 r) ∨ r = ⟨0, 0, 0⟩) :
    r_from_R (R_from_r r) = r := by
  rcases h with h | h
  · have hge : dblEpsilon ≤ mag3 r := (rEps_gt.trans (h.trans_le (Real.sin_le (mag3_nonneg r)))).le
    have de : 0 < dblEpsilon := by unfold dblEpsilon; positivity
    have hn : dblEpsilon * dblEpsilon ≤ norm2 r := by
      rw [norm2_eq]; exact mul_le_mul hge hge de.le (de.le.trans hge)
    have hm := mag3_ne r hn
    rw [R_from_r_nominal r hn, r_from_R_rodM _ _ (axis_unit r hm) (mag3_nonneg r) hpi h]
    simp only [axis]
    ext
    · simp only []; field_simp
    · simp only []; field_simp
    · simp only []; field_simp
  · subst h
    have : R_from_r ⟨0, 0, 0⟩ = identityR := by
      unfold R_from_r
      have e : norm2 ⟨0, 0, 0⟩ = 0 := by simp [norm2]
      simp only [e, eps_pos, if_true]
    rw [this]
    unfold r_from_R identityR
    norm_num [rEps]

/-- **C27**: R_from_r(r_from_R(R)) = R for each rotation whose angle has a sine > 1e-8 -/
theorem R_from_r_from_R (R : M3) (h : IsRot R)
    (hs : rEps ^ 2 < 1 - ((R.a00 + R.a11 + R.a22 - 1) / 2) ^ 2) :
    R_from_r (r_from_R R) = R ∧ mag3 (r_from_R R) ≤ Real.pi := by
  have he : (0 : ℝ) < rEps := by unfold rEps; norm_num
  obtain ⟨hn, hm1, hp1⟩ := h.norm2u
  obtain ⟨o1, o2, o3, o4, o5, o6⟩ := h.outer
  set c := (R.a00 + R.a11 + R.a22 - 1) / 2 with hc
  -- the angle
  set θ := Real.arccos c with hθ
  have hcos : Real.cos θ = c := Real.cos_arccos hm1 hp1
  have h0 : 0 ≤ θ := Real.arccos_nonneg c
  have hpi : θ ≤ Real.pi := Real.arccos_le_pi c
  have hsin0 : 0 ≤ Real.sin θ := Real.sin_nonneg_of_nonneg_of_le_pi h0 hpi
  have hsin2 : Real.sin θ ^ 2 = 1 - c ^ 2 := by rw [← hcos]; linarith [Real.sin_sq_add_cos_sq θ]
  set s := Real.sin θ with hsd
  have hsin : rEps < s := by
    by_contra hn'
    nlinarith [not_lt.mp hn']
  have hs0 : s ≠ 0 := (he.trans hsin).ne'
  have hc1 : 1 + c ≠ 0 := by
    intro h1
    have : c = -1 := by linarith
    rw [this] at hsin2
    norm_num at hsin2
    exact hs0 hsin2
  -- the axis
  set u : P3 := ⟨(R.a21 - R.a12) / (2 * s), (R.a02 - R.a20) / (2 * s), (R.a10 - R.a01) / (2 * s)⟩ with hu
  have ux : R.a21 - R.a12 = 2 * s * u.x := by simp only [hu]; field_simp
  have uy : R.a02 - R.a20 = 2 * s * u.y := by simp only [hu]; field_simp
  have uz : R.a10 - R.a01 = 2 * s * u.z := by simp only [hu]; field_simp
  have tr2 : R.a00 + R.a11 + R.a22 = 2 * c + 1 := by rw [hc]; ring
  rw [ux, uy, uz, ← hsin2] at hn
  rw [tr2, ux] at o1
  rw [tr2, uy] at o2
  rw [tr2, uz] at o3
  rw [tr2, ux, uy] at o4
  rw [tr2, ux, uz] at o5
  rw [tr2, uy, uz] at o6
  clear_value u s θ c
  have hs4 : (4 * s ^ 2) ≠ 0 := by positivity
  have hu1 : u.x * u.x + u.y * u.y + u.z * u.z = 1 := by
    apply mul_left_cancel₀ hs4
    linear_combination hn
  -- R is the (angle, axis) matrix
  have m1 : (1 - c) * u.x * u.x = R.a00 - c := by
    apply mul_left_cancel₀ hs4
    apply mul_left_cancel₀ hc1
    linear_combination (1 + c) * (1 - c) * o1 - 4 * (1 + c) * (R.a00 - c) * hsin2
  have m2 : (1 - c) * u.y * u.y = R.a11 - c := by
    apply mul_left_cancel₀ hs4
    linear_combination (1 - c) * o2 - 4 * (R.a11 - c) * hsin2
  have m3 : (1 - c) * u.z * u.z = R.a22 - c := by
    apply mul_left_cancel₀ hs4
    linear_combination (1 - c) * o3 - 4 * (R.a22 - c) * hsin2
  have m4 : (1 - c) * u.x * u.y = (R.a01 + R.a10) / 2 := by
    apply mul_left_cancel₀ hs4
    linear_combination (1 - c) * o4 - 2 * (R.a01 + R.a10) * hsin2
  have m5 : (1 - c) * u.x * u.z = (R.a02 + R.a20) / 2 := by
    apply mul_left_cancel₀ hs4
    linear_combination (1 - c) * o5 - 2 * (R.a02 + R.a20) * hsin2
  have m6 : (1 - c) * u.y * u.z = (R.a12 + R.a21) / 2 := by
    apply mul_left_cancel₀ hs4
    linear_combination (1 - c) * o6 - 2 * (R.a12 + R.a21) * hsin2
  have eR : R = rodM (Real.cos θ) (Real.sin θ) u := by
    rw [hcos, ← hsd]
    simp only [rodM]
    ext
    · simp only []; linarith
    · simp only []; linarith
    · simp only []; linarith
    · simp only []; linarith
    · simp only []; linarith
    · simp only []; linarith
    · simp only []; linarith
    · simp only []; linarith
    · simp only []; linarith
  have er : r_from_R R = ⟨u.x * θ, u.y * θ, u.z * θ⟩ := by
    rw [eR]
    exact r_from_R_rodM θ u hu1 h0 hpi (by rw [← hsd]; exact hsin)
  have hmag : mag3 ⟨u.x * θ, u.y * θ, u.z * θ⟩ = θ := by
    unfold mag3
    have : u.x * θ * (u.x * θ) + u.y * θ * (u.y * θ) + u.z * θ * (u.z * θ) = θ ^ 2 := by
      linear_combination θ ^ 2 * hu1
    simp only [this]
    exact Real.sqrt_sq h0
  have hθpos : rEps < θ := by
    have := Real.sin_le h0
    rw [hsd] at hsin
    linarith
  rw [er, hmag]
  refine ⟨?_, hpi⟩
  have hnn : dblEpsilon * dblEpsilon ≤ norm2 ⟨u.x * θ, u.y * θ, u.z * θ⟩ := by
    rw [norm2_eq, hmag]
    have := rEps_gt
    have de : 0 < dblEpsilon := by unfold dblEpsilon; positivity
    nlinarith
  rw [R_from_r_nominal _ hnn, hmag]
  conv_rhs => rw [eR]
  have hθ0 : θ ≠ 0 := (he.trans hθpos).ne'
  have : axis ⟨u.x * θ, u.y * θ, u.z * θ⟩ = u := by
    unfold axis
    rw [hmag]
    ext
    · simp only []; field_simp
    · simp only []; field_simp
    · simp only []; field_simp
  rw [this]

/-- the 90deg rotation about z meets the hypotheses; and so do the 180deg rotations -/
example : IsRot rotZ90 ∧ rEps ^ 2 < 1 - ((rotZ90.a00 + rotZ90.a11 + rotZ90.a22 - 1) / 2) ^ 2 := by
  refine ⟨⟨?_, ?_⟩, ?_⟩
  · unfold Orth
    ext i j
    fin_cases i <;> fin_cases j <;> simp [toMat, rotZ90, Matrix.mul_apply, Fin.sum_univ_three]
  · simp [toMat, rotZ90, Matrix.det_fin_three]
  · norm_num [rotZ90, rEps]

/-- rotating by π about a unit axis -/
theorem R_from_r_pi (v : P3) (hv : v.x * v.x + v.y * v.y + v.z * v.z = 1) :
    R_from_r ⟨v.x * Real.pi, v.y * Real.pi, v.z * Real.pi⟩ = rodM (-1) 0 v := by
  have hpi := Real.pi_pos
  have hmag : mag3 ⟨v.x * Real.pi, v.y * Real.pi, v.z * Real.pi⟩ = Real.pi := by
    unfold mag3
    have : v.x * Real.pi * (v.x * Real.pi) + v.y * Real.pi * (v.y * Real.pi) + v.z * Real.pi * (v.z * Real.pi) = Real.pi ^ 2 := by
      linear_combination Real.pi ^ 2 * hv
    simp only [this]
    exact Real.sqrt_sq hpi.le
  have hnn : dblEpsilon * dblEpsilon ≤ norm2 ⟨v.x * Real.pi, v.y * Real.pi, v.z * Real.pi⟩ := by
    rw [norm2_eq, hmag]
    have : dblEpsilon ≤ 1 := by unfold dblEpsilon; norm_num
    have de : 0 < dblEpsilon := by unfold dblEpsilon; positivity
    have h3 := Real.pi_gt_three
    nlinarith
  rw [R_from_r_nominal _ hnn, hmag, Real.cos_pi, Real.sin_pi]
  congr 1
  unfold axis
  rw [hmag]
  ext
  · simp only []; field_simp
  · simp only []; field_simp
  · simp only []; field_simp

/-- the sign selection: |a| |b| with the sign of the product -/
theorem sign_pick (a b m : ℝ) (ha : 0 ≤ a) (hb : 0 ≤ b) (h : m ^ 2 = a ^ 2 * b ^ 2) : a * (if m + m < 0 then b * -1 else b) = m := by
  have hab : 0 ≤ a * b := mul_nonneg ha hb
  have h2 : m ^ 2 = (a * b) ^ 2 := by rw [h]; ring
  split
  · rename_i hm
    have : m ≤ 0 := by linarith
    rcases sq_eq_sq_iff_eq_or_eq_neg.mp h2 with h3 | h3
    · nlinarith
    · rw [h3]; ring
  · rename_i hm
    have : 0 ≤ m := by linarith
    rcases sq_eq_sq_iff_eq_or_eq_neg.mp h2 with h3 | h3
    · rw [h3]
    · nlinarith

/-- the axis recovered from a symmetric rotation matrix (180deg) -/
theorem axis180 (R : M3) (h : IsRot R) (h01 : R.a10 = R.a01) (h02 : R.a20 = R.a02) (h12 : R.a21 = R.a12)
    (htr : R.a00 + R.a11 + R.a22 = -1) :
    (r_from_R_axis180 R).x * (r_from_R_axis180 R).x + (r_from_R_axis180 R).y * (r_from_R_axis180 R).y +
      (r_from_R_axis180 R).z * (r_from_R_axis180 R).z = 1 ∧ rodM (-1) 0 (r_from_R_axis180 R) = R := by
  obtain ⟨k00, k01, k02, k10, k11, k12, k20, k21, k22⟩ := h.cof
  rw [h12] at k00
  rw [h02] at k11
  rw [h01] at k22
  rw [h02, h12] at k12
  rw [h02, h01] at k01
  rw [h01, h12, h02] at k02
  obtain ⟨c0, c1, c2, -, -, -⟩ := h.1.cols
  have n0 : 0 ≤ (R.a00 + 1) / 2 := by nlinarith [sq_nonneg R.a10, sq_nonneg R.a20]
  have n1 : 0 ≤ (R.a11 + 1) / 2 := by nlinarith [sq_nonneg R.a01, sq_nonneg R.a21]
  have n2 : 0 ≤ (R.a22 + 1) / 2 := by nlinarith [sq_nonneg R.a02, sq_nonneg R.a12]
  have fe : ∀ q : ℝ, 0 ≤ q → (if q > 0 then Real.sqrt q else 0) = Real.sqrt q := by
    intro q hq
    split
    · rfl
    · rw [show q = 0 by linarith [not_lt.mp ‹¬ q > 0›], Real.sqrt_zero]
  -- rank one
  have p01 : ((R.a01) / 2) ^ 2 = (R.a00 + 1) / 2 * ((R.a11 + 1) / 2) := by linear_combination (k22 - htr) / 4
  have p02 : ((R.a02) / 2) ^ 2 = (R.a00 + 1) / 2 * ((R.a22 + 1) / 2) := by linear_combination (k11 - htr) / 4
  have p12 : ((R.a12) / 2) ^ 2 = (R.a11 + 1) / 2 * ((R.a22 + 1) / 2) := by linear_combination (k00 - htr) / 4
  have q0 : R.a01 / 2 * (R.a02 / 2) = (R.a00 + 1) / 2 * (R.a12 / 2) := by linear_combination -k12 / 4
  have q1 : R.a01 / 2 * (R.a12 / 2) = (R.a11 + 1) / 2 * (R.a02 / 2) := by linear_combination -k02 / 4
  have q2 : R.a02 / 2 * (R.a12 / 2) = (R.a22 + 1) / 2 * (R.a01 / 2) := by linear_combination -k01 / 4
  set X := Real.sqrt ((R.a00 + 1) / 2) with hX
  set Y := Real.sqrt ((R.a11 + 1) / 2) with hY
  set Z := Real.sqrt ((R.a22 + 1) / 2) with hZ
  have X0 : 0 ≤ X := Real.sqrt_nonneg _
  have Y0 : 0 ≤ Y := Real.sqrt_nonneg _
  have Z0 : 0 ≤ Z := Real.sqrt_nonneg _
  have X2 : X ^ 2 = (R.a00 + 1) / 2 := Real.sq_sqrt n0
  have Y2 : Y ^ 2 = (R.a11 + 1) / 2 := Real.sq_sqrt n1
  have Z2 : Z ^ 2 = (R.a22 + 1) / 2 := Real.sq_sqrt n2
  rw [← X2, ← Y2] at p01
  rw [← X2, ← Z2] at p02
  rw [← Y2, ← Z2] at p12
  rw [← X2] at q0
  rw [← Y2] at q1
  rw [← Z2] at q2
  have sum1 : X ^ 2 + Y ^ 2 + Z ^ 2 = 1 := by rw [X2, Y2, Z2]; linarith
  have dbl : ∀ m : ℝ, (m + m < 0) = (m / 2 + m / 2 < 0) := by
    intro m; apply propext; constructor <;> intro h <;> linarith
  have ifsq : ∀ (p : Prop) [Decidable p] (b : ℝ), (if p then b * -1 else b) * (if p then b * -1 else b) = b ^ 2 := by
    intro p _ b; split <;> ring
  have hv : r_from_R_axis180 R =
      if X > 0.1 then ⟨X, if R.a01 + R.a01 < 0 then Y * -1 else Y, if R.a02 + R.a02 < 0 then Z * -1 else Z⟩
      else if Y > 0.1 then ⟨if R.a01 + R.a01 < 0 then X * -1 else X, Y, if R.a12 + R.a12 < 0 then Z * -1 else Z⟩
      else ⟨if R.a02 + R.a02 < 0 then X * -1 else X, if R.a12 + R.a12 < 0 then Y * -1 else Y, Z⟩ := by
    unfold r_from_R_axis180
    simp only [fe _ n0, fe _ n1, fe _ n2, h01, h02, h12]
    rfl
  rw [hv]
  by_cases hx : X > 0.1
  · simp only [hx, if_true]
    have e1 := sign_pick X Y (R.a01 / 2) X0 Y0 p01
    have e2 := sign_pick X Z (R.a02 / 2) X0 Z0 p02
    simp only [dbl R.a01, dbl R.a02]
    have s1 := ifsq (R.a01 / 2 + R.a01 / 2 < 0) Y
    have s2 := ifsq (R.a02 / 2 + R.a02 / 2 < 0) Z
    set vy := (if R.a01 / 2 + R.a01 / 2 < 0 then Y * -1 else Y) with hvy
    set vz := (if R.a02 / 2 + R.a02 / 2 < 0 then Z * -1 else Z) with hvz
    have hX0 : X ^ 2 ≠ 0 := by
      have : (0 : ℝ) < X := by norm_num at hx; linarith
      positivity
    have e3 : vy * vz = R.a12 / 2 := by
      apply mul_left_cancel₀ hX0
      rw [← q0, ← e1, ← e2]; ring
    refine ⟨by linear_combination s1 + s2 + sum1, ?_⟩
    simp only [rodM]
    ext
    · simp only []; linear_combination 2 * X2
    · simp only []; linear_combination 2 * e1
    · simp only []; linear_combination 2 * e2
    · simp only []; linear_combination 2 * e1 - h01
    · simp only []; linear_combination 2 * s1 + 2 * Y2
    · simp only []; linear_combination 2 * e3
    · simp only []; linear_combination 2 * e2 - h02
    · simp only []; linear_combination 2 * e3 - h12
    · simp only []; linear_combination 2 * s2 + 2 * Z2
  · simp only [hx, if_false]
    by_cases hy : Y > 0.1
    · simp only [hy, if_true]
      have e1 := sign_pick Y X (R.a01 / 2) Y0 X0 (by rw [p01]; ring)
      have e2 := sign_pick Y Z (R.a12 / 2) Y0 Z0 p12
      simp only [dbl R.a01, dbl R.a12]
      have s1 := ifsq (R.a01 / 2 + R.a01 / 2 < 0) X
      have s2 := ifsq (R.a12 / 2 + R.a12 / 2 < 0) Z
      set vx := (if R.a01 / 2 + R.a01 / 2 < 0 then X * -1 else X) with hvx
      set vz := (if R.a12 / 2 + R.a12 / 2 < 0 then Z * -1 else Z) with hvz
      have hY0 : Y ^ 2 ≠ 0 := by
        have : (0 : ℝ) < Y := by norm_num at hy; linarith
        positivity
      have e3 : vx * vz = R.a02 / 2 := by
        apply mul_left_cancel₀ hY0
        rw [← q1, ← e1, ← e2]; ring
      refine ⟨by linear_combination s1 + s2 + sum1, ?_⟩
      simp only [rodM]
      ext
      · simp only []; linear_combination 2 * s1 + 2 * X2
      · simp only []; linear_combination 2 * e1
      · simp only []; linear_combination 2 * e3
      · simp only []; linear_combination 2 * e1 - h01
      · simp only []; linear_combination 2 * Y2
      · simp only []; linear_combination 2 * e2
      · simp only []; linear_combination 2 * e3 - h02
      · simp only []; linear_combination 2 * e2 - h12
      · simp only []; linear_combination 2 * s2 + 2 * Z2
    · simp only [hy, if_false]
      have hZ0 : Z ^ 2 ≠ 0 := by
        have hx' := not_lt.mp hx
        have hy' := not_lt.mp hy
        have x2 : X ^ 2 ≤ 0.1 ^ 2 := pow_le_pow_left₀ X0 hx' 2
        have y2 : Y ^ 2 ≤ 0.1 ^ 2 := pow_le_pow_left₀ Y0 hy' 2
        norm_num at x2 y2
        have : 0 < Z ^ 2 := by linarith
        exact this.ne'
      have e1 := sign_pick Z X (R.a02 / 2) Z0 X0 (by rw [p02]; ring)
      have e2 := sign_pick Z Y (R.a12 / 2) Z0 Y0 (by rw [p12]; ring)
      simp only [dbl R.a02, dbl R.a12]
      have s1 := ifsq (R.a02 / 2 + R.a02 / 2 < 0) X
      have s2 := ifsq (R.a12 / 2 + R.a12 / 2 < 0) Y
      set vx := (if R.a02 / 2 + R.a02 / 2 < 0 then X * -1 else X) with hvx
      set vy := (if R.a12 / 2 + R.a12 / 2 < 0 then Y * -1 else Y) with hvy
      have e3 : vx * vy = R.a01 / 2 := by
        apply mul_left_cancel₀ hZ0
        rw [← q2, ← e1, ← e2]; ring
      refine ⟨by linear_combination s1 + s2 + sum1, ?_⟩
      simp only [rodM]
      ext
      · simp only []; linear_combination 2 * s1 + 2 * X2
      · simp only []; linear_combination 2 * e3
      · simp only []; linear_combination 2 * e1
      · simp only []; linear_combination 2 * e3 - h01
      · simp only []; linear_combination 2 * s2 + 2 * Y2
      · simp only []; linear_combination 2 * e2
      · simp only []; linear_combination 2 * e1 - h02
      · simp only []; linear_combination 2 * e2 - h12
      · simp only []; linear_combination 2 * Z2

/-- **C27**: exact for the 0deg and 180deg rotations too: these are the symmetric rotation matrices -/
theorem R_from_r_from_R_sym (R : M3) (h : IsRot R) (hsym : transpose R = R) : R_from_r (r_from_R R) = R := by
  have h01 : R.a10 = R.a01 := congrArg M3.a01 hsym
  have h02 : R.a20 = R.a02 := congrArg M3.a02 hsym
  have h12 : R.a21 = R.a12 := congrArg M3.a12 hsym
  obtain ⟨hn, -, -⟩ := h.norm2u
  have e1 : R.a21 - R.a12 = 0 := by rw [h12]; ring
  have e2 : R.a02 - R.a20 = 0 := by rw [h02]; ring
  have e3 : R.a10 - R.a01 = 0 := by rw [h01]; ring
  have he : (0 : ℝ) < rEps := by unfold rEps; norm_num
  simp only [e1, e2, e3, mul_zero, add_zero] at hn
  have hc : ((R.a00 + R.a11 + R.a22 - 1) / 2) ^ 2 = 1 := by linarith
  unfold r_from_R
  simp only [e1, e2, e3, mul_zero, add_zero, zero_div, zero_add]
  have hno : ¬ ((0 : ℝ) > 4 * rEps * rEps ∧ 1 - |(R.a00 + R.a11 + R.a22 - 1) / 2| > rEps * rEps / 2) := by
    rintro ⟨h1, -⟩
    nlinarith
  rw [if_neg hno]
  rcases mul_self_eq_one_iff.mp (by rw [← sq]; exact hc : (R.a00 + R.a11 + R.a22 - 1) / 2 * ((R.a00 + R.a11 + R.a22 - 1) / 2) = 1) with hp | hm
  · rw [if_pos (by rw [hp]; norm_num)]
    have hz : R_from_r ⟨0, 0, 0⟩ = identityR := by
      unfold R_from_r
      have e : norm2 ⟨0, 0, 0⟩ = 0 := by simp [norm2]
      simp only [e, eps_pos, if_true]
    rw [hz]
    obtain ⟨c0, c1, c2, c01, c02, c12⟩ := h.1.cols
    have htr : R.a00 + R.a11 + R.a22 = 3 := by linarith
    have a0 : R.a00 ≤ 1 := by nlinarith [sq_nonneg R.a10, sq_nonneg R.a20]
    have a1 : R.a11 ≤ 1 := by nlinarith [sq_nonneg R.a01, sq_nonneg R.a21]
    have a2 : R.a22 ≤ 1 := by nlinarith [sq_nonneg R.a02, sq_nonneg R.a12]
    have b0 : R.a00 = 1 := by linarith
    have b1 : R.a11 = 1 := by linarith
    have b2 : R.a22 = 1 := by linarith
    rw [b0] at c0
    rw [b1] at c1
    have z10 : R.a10 = 0 := by
      rw [← mul_self_eq_zero]; linarith [mul_self_nonneg R.a10, mul_self_nonneg R.a20]
    have z20 : R.a20 = 0 := by
      rw [← mul_self_eq_zero]; linarith [mul_self_nonneg R.a10, mul_self_nonneg R.a20]
    have z21 : R.a21 = 0 := by
      rw [← mul_self_eq_zero]; linarith [mul_self_nonneg R.a01, mul_self_nonneg R.a21]
    unfold identityR
    ext
    · exact b0.symm
    · rw [← h01, z10]
    · rw [← h02, z20]
    · exact z10.symm
    · exact b1.symm
    · rw [← h12, z21]
    · exact z20.symm
    · exact z21.symm
    · exact b2.symm
  · rw [if_neg (by rw [hm]; norm_num)]
    obtain ⟨hv1, hv2⟩ := axis180 R h h01 h02 h12 (by linarith)
    rw [R_from_r_pi _ hv1, hv2]

end Mrcal.Pose
