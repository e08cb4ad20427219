import Verif.Props.ProcrustesProps
import Mathlib.Analysis.InnerProductSpace.Spectrum
import Mathlib.Analysis.InnerProductSpace.Adjoint
import Mathlib.Analysis.InnerProductSpace.PiL2

/-! # Each 3x3 matrix has a singular value decomposition: the contracts of LAPACK and of numpy can be met for all inputs -/

namespace Mrcal.Procrustes
open Matrix

/-- the vectors, as columns -/
def cols (e : Fin 3 → EuclideanSpace ℝ (Fin 3)) : Mat := Matrix.of fun j i => e i j

theorem svd_exists (A : Mat) : ∃ U S Vt, IsSvd A U S Vt := by
  let T : EuclideanSpace ℝ (Fin 3) →ₗ[ℝ] EuclideanSpace ℝ (Fin 3) := Matrix.toEuclideanLin A
  have hT : (LinearMap.adjoint T ∘ₗ T).IsSymmetric := by
    intro x y
    rw [LinearMap.comp_apply, LinearMap.comp_apply, LinearMap.adjoint_inner_left, LinearMap.adjoint_inner_right]
  have hn : Module.finrank ℝ (EuclideanSpace ℝ (Fin 3)) = 3 := by simp
  let b := hT.eigenvectorBasis hn
  let μ := hT.eigenvalues hn
  have hμ : Antitone μ := hT.eigenvalues_antitone hn
  have hb : ∀ i, (LinearMap.adjoint T ∘ₗ T) (b i) = μ i • b i := fun i => hT.apply_eigenvectorBasis hn i
  have hin : ∀ i j, inner ℝ (T (b i)) (T (b j)) = if i = j then μ i else 0 := by
    intro i j
    rw [← LinearMap.adjoint_inner_left, ← LinearMap.comp_apply, hb, real_inner_smul_left, b.inner_eq_ite]
    split <;> simp
  have hpos : ∀ i, 0 ≤ μ i := by
    intro i
    have := hin i i
    rw [if_pos rfl] at this
    rw [← this]
    exact real_inner_self_nonneg
  have hcard : Module.finrank ℝ (EuclideanSpace ℝ (Fin 3)) = Fintype.card (Fin 3) := by simp
  have ho : Orthonormal ℝ (({i | μ i ≠ 0} : Set (Fin 3)).domRestrict fun i => (1 / √(μ i)) • T (b i)) := by
    rw [orthonormal_iff_ite]
    rintro ⟨i, hi⟩ ⟨j, hj⟩
    show inner ℝ ((1 / √(μ i)) • T (b i)) ((1 / √(μ j)) • T (b j)) = _
    simp only [real_inner_smul_left, real_inner_smul_right, hin, Subtype.mk.injEq]
    by_cases h : i = j
    · subst h
      rw [if_pos rfl, if_pos rfl]
      have h1 : √(μ i) ≠ 0 := by rw [Real.sqrt_ne_zero']; exact lt_of_le_of_ne (hpos i) (Ne.symm hi)
      have h2 := Real.mul_self_sqrt (hpos i)
      field_simp
      linarith
    · rw [if_neg h, if_neg h]; simp
  obtain ⟨c, hc⟩ := ho.exists_orthonormalBasis_extension_of_card_eq hcard
  have hTc : ∀ i, T (b i) = √(μ i) • c i := by
    intro i
    by_cases h : μ i = 0
    · have := hin i i
      rw [if_pos rfl, h, inner_self_eq_zero] at this
      rw [this, h]; simp
    · rw [hc i h, smul_smul]
      have h1 : √(μ i) ≠ 0 := by rw [Real.sqrt_ne_zero']; exact lt_of_le_of_ne (hpos i) (Ne.symm h)
      rw [mul_one_div_cancel h1, one_smul]
  have gram : ∀ (e : OrthonormalBasis (Fin 3) ℝ (EuclideanSpace ℝ (Fin 3))), (cols e)ᵀ * (cols e) = 1 := by
    intro e
    ext i j
    have := e.inner_eq_ite i j
    rw [PiLp.inner_apply] at this
    rw [mul_apply, one_apply, ← this]
    refine Finset.sum_congr rfl fun k _ => ?_
    simp [cols, transpose_apply, mul_comm]
  have hV := gram b
  have hAV : A * (cols b) = (cols c) * diagonal (fun i => √(μ i)) := by
    ext j i
    rw [mul_diagonal]
    have := congrArg (fun v => v j) (hTc i)
    simp only [T, Matrix.toLpLin_apply] at this
    rw [mul_apply]
    simpa [cols, mulVec, dotProduct, mul_comm] using this
  refine ⟨(cols c), fun i => √(μ i), (cols b)ᵀ, ?_, gram c, ?_, ?_, ?_, Real.sqrt_nonneg _⟩
  · rw [← hAV, mul_assoc, mul_eq_one_comm.mp hV, mul_one]
  · rw [transpose_transpose]; exact hV
  · exact Real.sqrt_le_sqrt (hμ (by decide))
  · exact Real.sqrt_le_sqrt (hμ (by decide))

/-- a decomposition of each matrix -/
noncomputable def anySvd : NumpySvd := fun A => some ((svd_exists A).choose, (svd_exists A).choose_spec.choose, (svd_exists A).choose_spec.choose_spec.choose)
noncomputable def anyLapack : Lapack := fun A => (anySvd A).map fun r => (r.2.2, r.2.1, r.1)

theorem anySvd_ok : NumpyOk anySvd := by
  intro a u s vt h
  unfold anySvd at h
  simp only [Option.some.injEq, Prod.mk.injEq] at h
  obtain ⟨rfl, rfl, rfl⟩ := h
  exact (svd_exists a).choose_spec.choose_spec.choose_spec

theorem anyLapack_ok : LapackOk anyLapack := by
  intro a u s vt h
  unfold anyLapack at h
  cases hr : anySvd a with
  | none => rw [hr] at h; cases h
  | some r =>
    rw [hr] at h
    obtain ⟨V, S, Ut⟩ := r
    simp only [Option.map_some, Option.some.injEq, Prod.mk.injEq] at h
    obtain ⟨rfl, rfl, rfl⟩ := h
    obtain ⟨e, hu, hv, s1, s2, s3⟩ := anySvd_ok _ _ _ _ hr
    refine ⟨?_, ?_, ?_, s1, s2, s3⟩
    · rw [e]; simp only [transpose_mul, diagonal_transpose, mul_assoc]
    · rw [transpose_transpose]; exact hv
    · rw [transpose_transpose]; exact hu

theorem any_converges (A : Mat) : (anyLapack A).isSome ∧ (anySvd A).isSome := ⟨rfl, rfl⟩

end Mrcal.Procrustes
