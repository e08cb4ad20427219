import Verif.Props.PropagateProps
import Mathlib.Analysis.Matrix.Spectrum
/-
C79. worst_direction_stdev() is the largest standard deviation in any direction; and what the uncertainty routines report as "worstdirection-stdev" and "rms-stdev".
-/
namespace Mrcal.Propagate
open Mrcal Mrcal.Callback Mrcal.Pack Mrcal.StateLayout Matrix MeasureTheory

/-! ### Specification -/

/-- an array as a matrix -/
def mat (N : Nat) (V : Nat → Nat → ℝ) : Matrix (Fin N) (Fin N) ℝ := fun i j => V i j

/-- **Specification** of scipy's eigsh(V, 1, which='LM') for symmetric matrices: it returns an eigenvalue of the largest magnitude. It may fail to converge -/
def EigshOk (eigsh : Eigsh) : Prop := ∀ N V l, (mat N V)ᵀ = mat N V → eigsh N V = some l →
  (∃ u, u ≠ 0 ∧ mat N V *ᵥ u = l • u) ∧ ∀ k u, u ≠ 0 → mat N V *ᵥ u = k • u → |k| ≤ |l|

/-- **Specification**: a covariance matrix: symmetric; the variance in each direction isn't negative -/
structure IsCovariance (N : Nat) (V : Nat → Nat → ℝ) : Prop where
  symm : (mat N V)ᵀ = mat N V
  nonneg : ∀ u, 0 ≤ u ⬝ᵥ (mat N V *ᵥ u)

/-- **Specification**: s is the largest standard deviation in any direction -/
def IsWorstStdev (N : Nat) (V : Nat → Nat → ℝ) (s : ℝ) : Prop :=
  0 ≤ s ∧ (∀ u, u ⬝ᵥ u = 1 → u ⬝ᵥ (mat N V *ᵥ u) ≤ s ^ 2) ∧ ∃ u, u ⬝ᵥ u = 1 ∧ u ⬝ᵥ (mat N V *ᵥ u) = s ^ 2

/-! ### Helpers -/

/-- the quadratic form is bounded by the largest eigenvalue -/
theorem quad_le_eigenvalue {N : Nat} (A : Matrix (Fin N) (Fin N) ℝ) (hA : Aᵀ = A) (l : ℝ) (h : ∀ k u, u ≠ 0 → A *ᵥ u = k • u → k ≤ l) (u : Fin N → ℝ) (hu : u ⬝ᵥ u = 1) :
    u ⬝ᵥ (A *ᵥ u) ≤ l := by
  have hH : A.IsHermitian := by
    unfold Matrix.IsHermitian
    rw [conjTranspose_eq_transpose_of_trivial]; exact hA
  set U : Matrix (Fin N) (Fin N) ℝ := (hH.eigenvectorUnitary : Matrix (Fin N) (Fin N) ℝ) with hU
  have hUU' : Uᵀ * U = 1 := by
    have := Unitary.coe_star_mul_self hH.eigenvectorUnitary
    rwa [star_eq_conjTranspose, conjTranspose_eq_transpose_of_trivial] at this
  have hUU : U * Uᵀ = 1 := mul_eq_one_comm.1 hUU'
  have hcol : ∀ j, A *ᵥ (fun i => U i j) = hH.eigenvalues j • fun i => U i j := fun j => hH.mulVec_eigenvectorBasis j
  have hne : ∀ j, (fun i => U i j) ≠ 0 := by
    intro j h0
    have := congrFun (congrFun hUU' j) j
    rw [mul_apply, one_apply_eq] at this
    have hz : ∀ i, U i j = 0 := fun i => congrFun h0 i
    simp only [hz, mul_zero, Finset.sum_const_zero] at this
    exact zero_ne_one this
  have hev : ∀ j, hH.eigenvalues j ≤ l := fun j => h _ _ (hne j) (hcol j)
  obtain ⟨w, hw⟩ : ∃ w, w = Uᵀ *ᵥ u := ⟨_, rfl⟩
  have huw : u = U *ᵥ w := by rw [hw, mulVec_mulVec, hUU, one_mulVec]
  have hAU : A * U = U * diagonal hH.eigenvalues := by
    ext i j
    rw [mul_diagonal]
    have := congrFun (hcol j) i
    rw [Pi.smul_apply, smul_eq_mul, mul_comm] at this
    exact this
  have hww : w ⬝ᵥ w = 1 := by
    rw [← hu, huw, dotProduct_mulVec, ← mulVec_transpose, mulVec_mulVec, hUU', one_mulVec]
  have e : u ⬝ᵥ (A *ᵥ u) = ∑ j, hH.eigenvalues j * (w j * w j) := by
    rw [huw, mulVec_mulVec, hAU, ← mulVec_mulVec, dotProduct_mulVec, ← mulVec_transpose, mulVec_mulVec, hUU', one_mulVec]
    unfold dotProduct
    refine Finset.sum_congr rfl fun j _ => ?_
    rw [mulVec_diagonal]; ring
  rw [e]
  calc ∑ j, hH.eigenvalues j * (w j * w j) ≤ ∑ j, l * (w j * w j) := Finset.sum_le_sum fun j _ => mul_le_mul_of_nonneg_right (hev j) (mul_self_nonneg _)
    _ = l * (w ⬝ᵥ w) := by rw [← Finset.mul_sum]; rfl
    _ = l := by rw [hww, mul_one]

theorem two_by_two_bound (a b c x y : ℝ) (h : x * x + y * y = 1) : a * x * x + 2 * b * x * y + c * y * y ≤ (a + c) / 2 + Real.sqrt ((a - c) * (a - c) / 4 + b * b) := by
  have key : (a - c) / 2 * (x * x - y * y) + b * (2 * x * y) ≤ Real.sqrt ((a - c) * (a - c) / 4 + b * b) := by
    refine Real.le_sqrt_of_sq_le ?_
    have h1 : (x * x - y * y) ^ 2 + (2 * x * y) ^ 2 = 1 := by
      have : (x * x - y * y) ^ 2 + (2 * x * y) ^ 2 = (x * x + y * y) ^ 2 := by ring
      rw [this, h]; norm_num
    have h2 : ((a - c) * (a - c) / 4 + b * b) = ((a - c) * (a - c) / 4 + b * b) * ((x * x - y * y) ^ 2 + (2 * x * y) ^ 2) := by rw [h1, mul_one]
    rw [h2]
    nlinarith [sq_nonneg ((a - c) / 2 * (2 * x * y) - b * (x * x - y * y))]
  have : a * x * x + 2 * b * x * y + c * y * y = (a + c) / 2 * (x * x + y * y) + ((a - c) / 2 * (x * x - y * y) + b * (2 * x * y)) := by ring
  rw [this, h]
  linarith

theorem two_by_two_attained (a b c : ℝ) : ∃ x y : ℝ, x * x + y * y = 1 ∧ a * x * x + 2 * b * x * y + c * y * y = (a + c) / 2 + Real.sqrt ((a - c) * (a - c) / 4 + b * b) := by
  set R := Real.sqrt ((a - c) * (a - c) / 4 + b * b) with hR
  have hq : 0 ≤ (a - c) * (a - c) / 4 + b * b := by nlinarith [mul_self_nonneg (a - c), mul_self_nonneg b]
  have hRR : R * R = (a - c) * (a - c) / 4 + b * b := Real.mul_self_sqrt hq
  have hR0 : 0 ≤ R := Real.sqrt_nonneg _
  -- a unit vector with the double angle (C,S)
  have dbl : ∀ C S : ℝ, C * C + S * S = 1 → ∃ x y : ℝ, x * x + y * y = 1 ∧ x * x - y * y = C ∧ 2 * x * y = S := by
    intro C S hCS
    have hC1 : -1 ≤ C ∧ C ≤ 1 := abs_le.1 (abs_le_one_iff_mul_self_le_one.2 (by nlinarith [mul_self_nonneg S]))
    have s1 := Real.mul_self_sqrt (show 0 ≤ (1 + C) / 2 by linarith [hC1.1])
    have s2 := Real.mul_self_sqrt (show 0 ≤ (1 - C) / 2 by linarith [hC1.2])
    have s3 : 2 * Real.sqrt ((1 + C) / 2) * Real.sqrt ((1 - C) / 2) = |S| := by
      rw [mul_assoc, ← Real.sqrt_mul (by linarith [hC1.1]), ← Real.sqrt_sq_eq_abs, show (1 + C) / 2 * ((1 - C) / 2) = (S / 2) ^ 2 by nlinarith, Real.sqrt_sq_eq_abs, Real.sqrt_sq_eq_abs, abs_div, abs_two]
      ring
    rcases le_total 0 S with h | h
    · refine ⟨_, _, ?_, ?_, s3.trans (abs_of_nonneg h)⟩ <;> rw [s1, s2] <;> ring
    · refine ⟨Real.sqrt ((1 + C) / 2), -Real.sqrt ((1 - C) / 2), ?_, ?_, ?_⟩
      · rw [neg_mul_neg, s1, s2]; ring
      · rw [neg_mul_neg, s1, s2]; ring
      · rw [mul_neg, s3, abs_of_nonpos h, neg_neg]
  rcases hR0.eq_or_lt with h | h
  · have hz : (a - c) * (a - c) / 4 + b * b = 0 := by rw [← hRR, ← h]; ring
    have ha : a - c = 0 := mul_self_eq_zero.1 (by nlinarith [mul_self_nonneg (a - c), mul_self_nonneg b])
    exact ⟨1, 0, by norm_num, by rw [← h]; linarith⟩
  · obtain ⟨x, y, h1, h2, h3⟩ := dbl ((a - c) / 2 / R) (b / R) (by
      have : (a - c) / 2 / R * ((a - c) / 2 / R) + b / R * (b / R) = ((a - c) * (a - c) / 4 + b * b) / (R * R) := by field_simp; ring
      rw [this, ← hRR, div_self (mul_pos h h).ne'])
    refine ⟨x, y, h1, ?_⟩
    have e : a * x * x + 2 * b * x * y + c * y * y = (a + c) / 2 * (x * x + y * y) + ((a - c) / 2 * (x * x - y * y) + b * (2 * x * y)) := by ring
    rw [e, h1, h2, h3, mul_one]
    congr 1
    have : (a - c) / 2 * ((a - c) / 2 / R) + b * (b / R) = ((a - c) * (a - c) / 4 + b * b) / R := by field_simp; ring
    rw [this, ← hRR]
    field_simp

/-- C79 (worst direction). worst_direction_stdev() returns the largest standard deviation in any direction -/
theorem worst_direction_correct (eigsh : Eigsh) (he : EigshOk eigsh) (N : Nat) (cov : Nat → Nat → ℝ) (hc : IsCovariance N cov) (s : ℝ) (h : worstDirectionStdev eigsh N cov = some s) :
    IsWorstStdev N cov s := by
  unfold worstDirectionStdev at h
  split_ifs at h with h1 h2
  · subst h1
    obtain rfl := Option.some.inj h
    have q : ∀ u : Fin 1 → ℝ, u ⬝ᵥ (mat 1 cov *ᵥ u) = cov 0 0 * (u ⬝ᵥ u) := by
      intro u
      simp [dotProduct, mulVec, mat]; ring
    have h0 : 0 ≤ cov 0 0 := by
      have := hc.nonneg fun _ => 1
      rw [q] at this
      simpa [dotProduct] using this
    refine ⟨Real.sqrt_nonneg _, fun u hu => ?_, fun _ => 1, by simp [dotProduct], ?_⟩
    · rw [q, hu, mul_one, Real.sq_sqrt h0]
    · rw [q, Real.sq_sqrt h0]; simp [dotProduct]
  · subst h2
    obtain rfl := Option.some.inj h
    have hsym : cov 0 1 = cov 1 0 := by
      have := congrFun (congrFun hc.symm 1) 0
      exact this
    have q : ∀ u : Fin 2 → ℝ, u ⬝ᵥ (mat 2 cov *ᵥ u) = cov 0 0 * u 0 * u 0 + 2 * cov 1 0 * u 0 * u 1 + cov 1 1 * u 1 * u 1 := by
      intro u
      simp [dotProduct, mulVec, mat, Fin.sum_univ_two, hsym]; ring
    have n : ∀ u : Fin 2 → ℝ, u ⬝ᵥ u = u 0 * u 0 + u 1 * u 1 := by intro u; simp [dotProduct, Fin.sum_univ_two]
    obtain ⟨x, y, hxy, hv⟩ := two_by_two_attained (cov 0 0) (cov 1 0) (cov 1 1)
    have h0 : 0 ≤ (cov 0 0 + cov 1 1) / 2 + Real.sqrt ((cov 0 0 - cov 1 1) * (cov 0 0 - cov 1 1) / 4 + cov 1 0 * cov 1 0) := by
      have := hc.nonneg ![x, y]
      rw [q] at this
      rw [← hv]; exact this
    refine ⟨Real.sqrt_nonneg _, fun u hu => ?_, ![x, y], ?_, ?_⟩
    · rw [q, Real.sq_sqrt h0]
      rw [n] at hu
      exact two_by_two_bound _ _ _ _ _ hu
    · rw [n]; exact hxy
    · rw [q, Real.sq_sqrt h0]; exact hv
  · obtain ⟨l, hl, rfl⟩ := Option.map_eq_some_iff.1 h
    obtain ⟨⟨u, hu, hue⟩, hmax⟩ := he N cov l hc.symm hl
    have huu : 0 < u ⬝ᵥ u := by
      have h0 : 0 ≤ u ⬝ᵥ u := by unfold dotProduct; exact Finset.sum_nonneg fun i _ => mul_self_nonneg _
      exact lt_of_le_of_ne h0 fun hz => hu (dotProduct_self_eq_zero.1 hz.symm)
    have hl0 : 0 ≤ l := by
      have := hc.nonneg u
      rw [hue, dotProduct_smul, smul_eq_mul] at this
      exact nonneg_of_mul_nonneg_left this huu
    refine ⟨Real.sqrt_nonneg _, fun v hv => ?_, (Real.sqrt (u ⬝ᵥ u))⁻¹ • u, ?_, ?_⟩
    · rw [Real.sq_sqrt hl0]
      refine quad_le_eigenvalue _ hc.symm l (fun k w hw hk => ?_) v hv
      have := hmax k w hw hk
      rw [abs_of_nonneg hl0] at this
      exact (le_abs_self k).trans this
    · rw [smul_dotProduct, dotProduct_smul, smul_eq_mul, smul_eq_mul, ← mul_assoc, ← mul_inv, Real.mul_self_sqrt huu.le, inv_mul_cancel₀ huu.ne']
    · rw [mulVec_smul, hue, smul_dotProduct, dotProduct_smul, dotProduct_smul, Real.sq_sqrt hl0]
      simp only [smul_eq_mul]
      rw [← mul_assoc, ← mul_inv, Real.mul_self_sqrt huu.le]
      field_simp

/-- a 3-dimensional covariance. It needs the eigenvalue routine -/
example : IsCovariance 3 (fun i j => if i = j then (i : ℝ) else 0) := by
  have q : mat 3 (fun i j => if i = j then (i : ℝ) else 0) = diagonal fun i : Fin 3 => ((i : Nat) : ℝ) := by
    ext i j
    unfold mat
    rw [diagonal_apply]
    simp only [Fin.ext_iff]
  refine ⟨by rw [q, diagonal_transpose], fun u => ?_⟩
  rw [q]
  unfold dotProduct
  refine Finset.sum_nonneg fun i _ => ?_
  rw [mulVec_diagonal]
  nlinarith [mul_nonneg (Nat.cast_nonneg (α := ℝ) (i : Nat)) (mul_self_nonneg (u i))]

/-! ### What's reported -/

/-- **Specification**: the change of F in a direction -/
noncomputable def along {N : Nat} (d : Dims) (F : Mem) (u : Fin N → ℝ) (v : Mem) : ℝ := ∑ r, u r * deltaF d F v r

/-- the variance in any direction -/
theorem variance_along (c : Ctx) (ok : CtxOk c) (idx : IdxOk c) (out : Out) (ho : optimizerCallback c = some out) (h0 : 0 < numStates c.d)
    (hopt : IsOptimum out (fun _ => 0) fun _ => 0) (N : Nat) (F : Mem) (V : Nat → Nat → ℝ) (a : Nat → Fin (numStates c.d).toNat → ℝ)
    (hF : ∀ v r, r < N → deltaF c.d F v r = a r ⬝ᵥ ((((csrOf out).dense out.x.length (numStates c.d).toNat)ᵀ * (csrOf out).dense out.x.length (numStates c.d).toNat) *ᵥ fun j => v (j : Nat)))
    (hV : ∀ r < N, ∀ s < N, V r s = ∑ i : Fin out.x.length, if (i : Nat) < numObserved c then
        ((csrOf out).dense out.x.length (numStates c.d).toNat *ᵥ a r) i * ((csrOf out).dense out.x.length (numStates c.d).toNat *ᵥ a s) i else 0) (u : Fin N → ℝ) :
    0 ≤ u ⬝ᵥ (mat N V *ᵥ u) ∧
    ∀ (σ : ℝ) {Ω : Type} [MeasurableSpace Ω] (μ : Measure Ω) (noise : Ω → Nat → ℝ), WhiteNoise μ noise (numObserved c) σ → ∀ (step : Ω → Mem), (∀ ω, IsOptimum out (noise ω) (step ω)) →
      Integrable (fun ω => along c.d F u (step ω) ^ 2) μ ∧ ∫ ω, along c.d F u (step ω) ^ 2 ∂μ = (u ⬝ᵥ (mat N V *ᵥ u)) * σ ^ 2 := by
  set J := (csrOf out).dense out.x.length (numStates c.d).toNat with hJ
  set z : Fin out.x.length → ℝ := fun i => ∑ r : Fin N, u r * (J *ᵥ a r) i with hz
  have q : u ⬝ᵥ (mat N V *ᵥ u) = ∑ i : Fin out.x.length, if (i : Nat) < numObserved c then z i * z i else 0 := by
    unfold dotProduct mulVec dotProduct mat
    simp only [hV _ (Fin.is_lt _) _ (Fin.is_lt _), Finset.mul_sum, Finset.sum_mul]
    have : ∀ x : Fin N, ∑ y : Fin N, ∑ i : Fin out.x.length, u x * ((if (i : Nat) < numObserved c then (J *ᵥ a x) i * (J *ᵥ a y) i else 0) * u y) =
        ∑ i : Fin out.x.length, ∑ y : Fin N, u x * ((if (i : Nat) < numObserved c then (J *ᵥ a x) i * (J *ᵥ a y) i else 0) * u y) := fun x => Finset.sum_comm
    rw [Finset.sum_congr rfl fun x _ => this x, Finset.sum_comm]
    refine Finset.sum_congr rfl fun i _ => ?_
    split_ifs
    · rw [hz]
      simp only
      rw [Finset.sum_mul_sum]
      exact Finset.sum_congr rfl fun x _ => Finset.sum_congr rfl fun y _ => by ring
    · simp
  constructor
  · rw [q]
    refine Finset.sum_nonneg fun i _ => ?_
    split_ifs
    · exact mul_self_nonneg _
    · exact le_refl _
  · intro σ Ω _ μ noise hw step hs
    have e : ∀ ω, along c.d F u (step ω) = ∑ i : Fin out.x.length, z i * noise ω i := by
      intro ω
      unfold along
      rw [hz]
      simp only [Finset.sum_mul]
      rw [Finset.sum_comm]
      refine Finset.sum_congr rfl fun r _ => ?_
      rw [hF _ r r.2, deltaF_eq c ok idx out ho h0 hopt (noise ω) (step ω) (hs ω), Finset.mul_sum]
      exact Finset.sum_congr rfl fun i _ => by ring
    simp only [e, pow_two]
    obtain ⟨w1, w2⟩ := white_moment hw out.x.length z z
    refine ⟨w1, ?_⟩
    rw [w2, q, pow_two]

theorem core_isCovariance (c : Ctx) (ok : CtxOk c) (idx : IdxOk c) (out : Out) (ho : optimizerCallback c = some out) (h0 : 0 < numStates c.d)
    (hopt : IsOptimum out (fun _ => 0) fun _ => 0) (N : Nat) (F : Mem) (V : Nat → Nat → ℝ) (a : Nat → Fin (numStates c.d).toNat → ℝ)
    (hF : ∀ v r, r < N → deltaF c.d F v r = a r ⬝ᵥ ((((csrOf out).dense out.x.length (numStates c.d).toNat)ᵀ * (csrOf out).dense out.x.length (numStates c.d).toNat) *ᵥ fun j => v (j : Nat)))
    (hV : ∀ r < N, ∀ s < N, V r s = ∑ i : Fin out.x.length, if (i : Nat) < numObserved c then
        ((csrOf out).dense out.x.length (numStates c.d).toNat *ᵥ a r) i * ((csrOf out).dense out.x.length (numStates c.d).toNat *ᵥ a s) i else 0) : IsCovariance N V := by
  refine ⟨?_, fun u => (variance_along c ok idx out ho h0 hopt N F V a hF hV u).1⟩
  ext i j
  rw [transpose_apply]
  unfold mat
  rw [hV j j.2 i i.2, hV i i.2 j j.2]
  exact Finset.sum_congr rfl fun k _ => by rw [mul_comm]

/-- C79 (worst direction). The reported "worstdirection-stdev" is the largest standard deviation of F in any direction -/
theorem worst_direction_reported (C : Cholmod) (hC : CholmodOk C) (eigsh : Eigsh) (he : EigshOk eigsh) (c : Ctx) (ok : CtxOk c) (idx : IdxOk c) (out : Out)
    (ho : optimizerCallback c = some out) (hopt : IsOptimum out (fun _ => 0) fun _ => 0) (N : Nat) (hN : 0 < N) (F : Mem) (σ : ℝ) (hσ : 0 ≤ σ) (s : ℝ)
    (h : propagate C eigsh "worstdirection-stdev" c N F (some σ) = some (.number s))
    {Ω : Type} [MeasurableSpace Ω] (μ : Measure Ω) (noise : Ω → Nat → ℝ) (hw : WhiteNoise μ noise (numObserved c) σ) (step : Ω → Mem) (hs : ∀ ω, IsOptimum out (noise ω) (step ω)) :
    0 ≤ s ∧ (∀ u : Fin N → ℝ, u ⬝ᵥ u = 1 → ∫ ω, along c.d F u (step ω) ^ 2 ∂μ ≤ s ^ 2) ∧ ∃ u : Fin N → ℝ, u ⬝ᵥ u = 1 ∧ ∫ ω, along c.d F u (step ω) ^ 2 ∂μ = s ^ 2 := by
  have hp0 := h
  have hsome : ∃ r, propagate C (fun _ _ => some 0) "worstdirection-stdev" c N F (some σ) = some r := by
    unfold propagate at h ⊢
    rw [if_neg (by simp)] at h ⊢
    simp only [Option.bind_eq_bind, Option.bind_eq_some_iff] at h ⊢
    obtain ⟨b, hb, o, hoo, f, hf, l, hl, st, hst, fl, hfl, hr⟩ := h
    refine ⟨.number ((worstDirectionStdev (fun _ _ => some 0) N fun i j => fl (i * N + j)).getD 0 * st), b, hb, o, hoo, f, hf, l, hl, st, hst, fl, hfl, ?_⟩
    rw [if_neg (by decide), if_neg (by decide), if_pos trivial]
    unfold worstDirectionStdev
    split_ifs <;> rfl
  obtain ⟨-, h0, hobs, hrank, hreg, -⟩ := (propagate_succeeds_iff C hC (fun _ _ => some 0) "worstdirection-stdev" c ok idx out ho N hN F (some σ) (by simp)).1 hsome
  obtain ⟨V, a, hF, hV, hp⟩ := propagate_core C hC c ok idx out ho h0 hrank hobs hreg N hN F
  rw [hp eigsh "worstdirection-stdev" (some σ) (by simp)] at hp0
  simp only [Option.or, Option.bind_some, finish] at hp0
  rw [if_neg (by decide), if_neg (by decide), if_pos trivial] at hp0
  obtain ⟨t, ht, hts⟩ := Option.map_eq_some_iff.1 hp0
  obtain rfl := Res.number.inj hts
  obtain ⟨t0, tmax, u, hu, hut⟩ := worst_direction_correct eigsh he N V (core_isCovariance c ok idx out ho h0 hopt N F V a hF hV) t ht
  have var := fun u => ((variance_along c ok idx out ho h0 hopt N F V a hF hV u).2 σ μ noise hw step hs).2
  refine ⟨mul_nonneg t0 hσ, fun u hu => ?_, u, hu, ?_⟩
  · rw [var, mul_pow]
    exact mul_le_mul_of_nonneg_right (tmax u hu) (sq_nonneg _)
  · rw [var, hut, mul_pow]

/-- C79 (rms). The reported "rms-stdev" is the RMS of the standard deviations of F along any set of orthogonal axes: the mean of the variances is its square -/
theorem rms_stdev (C : Cholmod) (hC : CholmodOk C) (eigsh : Eigsh) (c : Ctx) (ok : CtxOk c) (idx : IdxOk c) (out : Out)
    (ho : optimizerCallback c = some out) (hopt : IsOptimum out (fun _ => 0) fun _ => 0) (N : Nat) (hN : 0 < N) (F : Mem) (σ : ℝ) (hσ : 0 ≤ σ) (s : ℝ)
    (h : propagate C eigsh "rms-stdev" c N F (some σ) = some (.number s))
    {Ω : Type} [MeasurableSpace Ω] (μ : Measure Ω) (noise : Ω → Nat → ℝ) (hw : WhiteNoise μ noise (numObserved c) σ) (step : Ω → Mem) (hs : ∀ ω, IsOptimum out (noise ω) (step ω))
    (axes : Matrix (Fin N) (Fin N) ℝ) (hax : axes * axesᵀ = 1) :
    0 ≤ s ∧ s ^ 2 = (∑ k, ∫ ω, along c.d F (axes k) (step ω) ^ 2 ∂μ) / N := by
  obtain ⟨-, h0, hobs, hrank, hreg, -⟩ := (propagate_succeeds_iff C hC eigsh "rms-stdev" c ok idx out ho N hN F (some σ) (by intro h; simp at h)).1 ⟨_, h⟩
  obtain ⟨V, a, hF, hV, hp⟩ := propagate_core C hC c ok idx out ho h0 hrank hobs hreg N hN F
  rw [hp eigsh "rms-stdev" (some σ) (by simp)] at h
  simp only [Option.or, Option.bind_some, finish] at h
  rw [if_neg (by decide), if_neg (by decide), if_neg (by decide)] at h
  obtain rfl := Res.number.inj (Option.some.inj h)
  have var := fun u => ((variance_along c ok idx out ho h0 hopt N F V a hF hV u).2 σ μ noise hw step hs).2
  have hcov := core_isCovariance c ok idx out ho h0 hopt N F V a hF hV
  have tr : ∑ i ∈ Finset.range N, V i i = (mat N V).trace := by
    rw [← Fin.sum_univ_eq_sum_range (fun i => V i i) N]
    rfl
  have tr2 : ∑ k, axes k ⬝ᵥ (mat N V *ᵥ axes k) = (mat N V).trace := by
    have e : ∑ k, axes k ⬝ᵥ (mat N V *ᵥ axes k) = (axes * (mat N V * axesᵀ)).trace := by
      unfold trace
      refine Finset.sum_congr rfl fun k _ => ?_
      rw [diag_apply, mul_apply]
      unfold dotProduct mulVec dotProduct
      refine Finset.sum_congr rfl fun i _ => ?_
      rw [mul_apply]
      rfl
    rw [e, trace_mul_comm, Matrix.mul_assoc, mul_eq_one_comm.1 hax, Matrix.mul_one]
  have hN' : (0 : ℝ) < N := by exact_mod_cast hN
  have nonneg : 0 ≤ (∑ i ∈ Finset.range N, V i i) / N := by
    refine div_nonneg ?_ hN'.le
    rw [tr, ← tr2]
    exact Finset.sum_nonneg fun k _ => hcov.nonneg _
  refine ⟨mul_nonneg (Real.sqrt_nonneg _) hσ, ?_⟩
  rw [mul_pow, Real.sq_sqrt nonneg]
  simp only [var]
  rw [← Finset.sum_mul, tr2, tr]
  ring

end Mrcal.Propagate
