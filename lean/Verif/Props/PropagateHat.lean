import Verif.Props.PropagateLinear
import Mathlib.LinearAlgebra.Matrix.Trace
import Mathlib.Tactic.Ring
/-
The projection onto the range of J: lemmas for PropagateSigmaProps
-/
namespace Mrcal.Propagate
open Matrix

variable {m n : Nat}

/-- the projection onto the range of J -/
noncomputable def hat (J : Matrix (Fin m) (Fin n) ℝ) : Matrix (Fin m) (Fin m) ℝ := J * (Jᵀ * J)⁻¹ * Jᵀ

theorem gram_det (J : Matrix (Fin m) (Fin n) ℝ) (hJ : ∀ v, J *ᵥ v = 0 → v = 0) : IsUnit (Jᵀ * J).det := by
  rw [isUnit_iff_ne_zero]
  intro h
  obtain ⟨v, hv, hv'⟩ := exists_mulVec_eq_zero_iff.2 h
  exact hv (gram_injective J hJ v hv')

theorem hat_symm (J : Matrix (Fin m) (Fin n) ℝ) : (hat J)ᵀ = hat J := by
  unfold hat
  rw [transpose_mul, transpose_mul, transpose_transpose, transpose_nonsing_inv, transpose_mul, transpose_transpose, Matrix.mul_assoc]

theorem hat_idem (J : Matrix (Fin m) (Fin n) ℝ) (hJ : ∀ v, J *ᵥ v = 0 → v = 0) : hat J * hat J = hat J := by
  unfold hat
  have hd := gram_det J hJ
  calc J * (Jᵀ * J)⁻¹ * Jᵀ * (J * (Jᵀ * J)⁻¹ * Jᵀ) = J * ((Jᵀ * J)⁻¹ * (Jᵀ * J)) * (Jᵀ * J)⁻¹ * Jᵀ := by simp only [Matrix.mul_assoc]
    _ = _ := by rw [nonsing_inv_mul _ hd, Matrix.mul_one]

theorem hat_trace (J : Matrix (Fin m) (Fin n) ℝ) (hJ : ∀ v, J *ᵥ v = 0 → v = 0) : ∑ i, hat J i i = n := by
  have : (hat J).trace = n := by
    unfold hat
    rw [Matrix.mul_assoc, trace_mul_comm, Matrix.mul_assoc, nonsing_inv_mul _ (gram_det J hJ), trace_one, Fintype.card_fin]
  exact this

theorem hat_zero_row (J : Matrix (Fin m) (Fin n) ℝ) (i : Fin m) (h : ∀ j, J i j = 0) (k : Fin m) : hat J i k = 0 := by
  unfold hat
  rw [Matrix.mul_assoc, mul_apply]
  exact Finset.sum_eq_zero fun j _ => by rw [h, zero_mul]

theorem hat_row (J : Matrix (Fin m) (Fin n) ℝ) (hJ : ∀ v, J *ᵥ v = 0 → v = 0) (i : Fin m) : ∑ j, hat J i j * hat J i j = hat J i i := by
  conv_rhs => rw [← hat_idem J hJ, mul_apply]
  exact Finset.sum_congr rfl fun j _ => by
    have : hat J j i = hat J i j := by conv_lhs => rw [← hat_symm J, transpose_apply]
    rw [this]

/-- a nonzero row has some leverage -/
theorem hat_pos (J : Matrix (Fin m) (Fin n) ℝ) (hJ : ∀ v, J *ᵥ v = 0 → v = 0) (i : Fin m) (h : ∃ j, J i j ≠ 0) : 0 < hat J i i := by
  have h0 : 0 ≤ hat J i i := by rw [← hat_row J hJ]; exact Finset.sum_nonneg fun j _ => mul_self_nonneg _
  refine lt_of_le_of_ne h0 fun he => ?_
  have hz : ∀ j, hat J i j = 0 := by
    intro j
    have := (Finset.sum_eq_zero_iff_of_nonneg fun j _ => mul_self_nonneg (hat J i j)).1 ((hat_row J hJ i).trans he.symm) j (Finset.mem_univ j)
    exact mul_self_eq_zero.1 this
  obtain ⟨j, hj⟩ := h
  -- H J = J
  have hHJ : hat J * J = J := by
    unfold hat
    rw [Matrix.mul_assoc, Matrix.mul_assoc, nonsing_inv_mul _ (gram_det J hJ), Matrix.mul_one]
  refine hj ?_
  rw [← hHJ, mul_apply]
  exact Finset.sum_eq_zero fun k _ => by rw [hz, zero_mul]

open Classical in
/-- the part of the noise that's left in the residuals of the inliers: rows that have no noise (regularization) are `reg`, others that aren't inliers have no gradient -/
theorem hat_residual (J : Matrix (Fin m) (Fin n) ℝ) (hJ : ∀ v, J *ᵥ v = 0 → v = 0) (inl reg : Fin m → Prop) (hd : ∀ i, inl i → ¬ reg i) (hz : ∀ i, ¬ inl i → ¬ reg i → ∀ j, J i j = 0) :
    ∑ i, (if inl i then ∑ j, (if ¬ reg j then ((if i = j then 1 else 0) - hat J i j) * ((if i = j then 1 else 0) - hat J i j) else 0) else 0) =
      (Finset.univ.filter inl).card - (n : ℝ) + ∑ i, (if reg i then ∑ j, (if reg j then hat J i j * hat J i j else 0) else 0) := by
  have hs : ∀ i j, hat J j i = hat J i j := fun i j => by conv_lhs => rw [← hat_symm J, transpose_apply]
  have e1 : ∀ i, inl i → ∑ j, (if ¬ reg j then ((if i = j then 1 else 0) - hat J i j) * ((if i = j then 1 else 0) - hat J i j) else 0) =
      1 - hat J i i - ∑ j, (if reg j then hat J i j * hat J i j else 0) := by
    intro i hi
    have : ∀ j, (if ¬ reg j then ((if i = j then (1 : ℝ) else 0) - hat J i j) * ((if i = j then 1 else 0) - hat J i j) else 0) =
        (if i = j then 1 - 2 * hat J i i else 0) + hat J i j * hat J i j - (if reg j then hat J i j * hat J i j else 0) := by
      intro j
      by_cases hij : i = j
      · subst hij
        rw [if_pos (hd i hi), if_neg (hd i hi), if_pos rfl, if_pos rfl]; ring
      · rw [if_neg hij, if_neg hij]
        by_cases hr : reg j
        · rw [if_neg (not_not.mpr hr), if_pos hr]; ring
        · rw [if_pos hr, if_neg hr]; ring
    rw [Finset.sum_congr rfl fun j _ => this j, Finset.sum_sub_distrib, Finset.sum_add_distrib, hat_row J hJ, Finset.sum_ite_eq, if_pos (Finset.mem_univ _)]
    ring
  have e2 : ∀ i, (if inl i then ∑ j, (if ¬ reg j then ((if i = j then (1 : ℝ) else 0) - hat J i j) * ((if i = j then 1 else 0) - hat J i j) else 0) else 0) =
      (if inl i then (1 : ℝ) else 0) - (hat J i i - (if reg i then hat J i i else 0)) -
        (∑ j, (if reg j then hat J j i * hat J j i else 0) - (if reg i then ∑ j, (if reg j then hat J i j * hat J i j else 0) else 0)) := by
    intro i
    simp only [hs i]
    by_cases hi : inl i
    · rw [if_pos hi, if_pos hi, if_neg (hd i hi), if_neg (hd i hi), e1 i hi]; ring
    · rw [if_neg hi, if_neg hi]
      by_cases hr : reg i
      · rw [if_pos hr, if_pos hr]; ring
      · rw [if_neg hr, if_neg hr]
        have := hat_zero_row J i (hz i hi hr)
        simp [this]
  rw [Finset.sum_congr rfl fun i _ => e2 i]
  simp only [Finset.sum_sub_distrib]
  rw [hat_trace J hJ]
  have e3 : ∑ i, ∑ j, (if reg j then hat J j i * hat J j i else 0) = ∑ i, if reg i then hat J i i else 0 := by
    rw [Finset.sum_comm]
    refine Finset.sum_congr rfl fun j _ => ?_
    split_ifs
    · exact hat_row J hJ j
    · simp
  rw [e3, Finset.sum_boole]
  ring

open Classical in
/-- bounds of the effect of the regularization -/
theorem hat_bounds (J : Matrix (Fin m) (Fin n) ℝ) (hJ : ∀ v, J *ᵥ v = 0 → v = 0) (reg : Fin m → Prop) :
    0 ≤ ∑ i, (if reg i then ∑ j, (if reg j then hat J i j * hat J i j else 0) else 0) ∧
    ∑ i, (if reg i then ∑ j, (if reg j then hat J i j * hat J i j else 0) else 0) ≤ n ∧
    ((∃ i, reg i ∧ ∃ j, J i j ≠ 0) → 0 < ∑ i, (if reg i then ∑ j, (if reg j then hat J i j * hat J i j else 0) else 0)) := by
  have h1 : ∀ i, 0 ≤ (if reg i then ∑ j, (if reg j then hat J i j * hat J i j else 0) else 0) := by
    intro i
    split_ifs
    · exact Finset.sum_nonneg fun j _ => by split_ifs; exacts [mul_self_nonneg _, le_refl _]
    · exact le_refl _
  refine ⟨Finset.sum_nonneg fun i _ => h1 i, ?_, ?_⟩
  · rw [← hat_trace J hJ]
    refine Finset.sum_le_sum fun i _ => ?_
    rw [← hat_row J hJ]
    split_ifs
    · exact Finset.sum_le_sum fun j _ => by split_ifs; exacts [le_refl _, mul_self_nonneg _]
    · exact Finset.sum_nonneg fun j _ => mul_self_nonneg _
  · rintro ⟨i, hr, hj⟩
    refine Finset.sum_pos' (fun i _ => h1 i) ⟨i, Finset.mem_univ i, ?_⟩
    rw [if_pos hr]
    refine Finset.sum_pos' (fun j _ => by split_ifs; exacts [mul_self_nonneg _, le_refl _]) ⟨i, Finset.mem_univ i, ?_⟩
    rw [if_pos hr]
    have := hat_pos J hJ i hj
    positivity
end Mrcal.Propagate
