import Mathlib.LinearAlgebra.Matrix.NonsingularInverse
import Mathlib.LinearAlgebra.Matrix.ToLin
import Mathlib.LinearAlgebra.Matrix.Trace
import Mathlib.LinearAlgebra.Matrix.DotProduct
import Mathlib.LinearAlgebra.Matrix.ToLinearEquiv
import Mathlib.Data.Real.Basic
import Mathlib.Tactic.FieldSimp
import Mathlib.Tactic.Ring
import Mathlib.Tactic.Linarith
/-
Linear algebra used by PropagateProps: the normal equations, and the quadratic form of an inverse through an LDLt factorization.
-/
namespace Mrcal.Propagate
open Matrix

variable {m n : Type} [Fintype m] [Fintype n]

/-- the optimum of a linear least-squares problem satisfies the normal equations -/
theorem normal_equations (J : Matrix m n ℝ) (y : m → ℝ) (v : n → ℝ) (h : ∀ w, (y + J *ᵥ v) ⬝ᵥ (y + J *ᵥ v) ≤ (y + J *ᵥ w) ⬝ᵥ (y + J *ᵥ w)) :
    Jᵀ *ᵥ (y + J *ᵥ v) = 0 := by
  set r := y + J *ᵥ v with hr
  set g := Jᵀ *ᵥ r with hg
  by_contra hne
  have gpos : 0 < g ⬝ᵥ g := by
    have h0 : 0 ≤ g ⬝ᵥ g := by unfold dotProduct; exact Finset.sum_nonneg fun i _ => mul_self_nonneg _
    rcases lt_or_eq_of_le h0 with h1 | h1
    · exact h1
    · refine absurd ?_ hne
      exact dotProduct_self_eq_zero.1 h1.symm
  set K := (J *ᵥ g) ⬝ᵥ (J *ᵥ g) with hK
  have K0 : 0 ≤ K := by rw [hK]; unfold dotProduct; exact Finset.sum_nonneg fun i _ => mul_self_nonneg _
  -- a step of t along -g
  have hstep : ∀ t : ℝ, r ⬝ᵥ r ≤ r ⬝ᵥ r - 2 * t * (g ⬝ᵥ g) + t * t * K := by
    intro t
    have := h (v - t • g)
    have e : y + J *ᵥ (v - t • g) = r - t • (J *ᵥ g) := by rw [hr, mulVec_sub, mulVec_smul]; abel
    rw [e] at this
    have e2 : (r - t • (J *ᵥ g)) ⬝ᵥ (r - t • (J *ᵥ g)) = r ⬝ᵥ r - 2 * t * (r ⬝ᵥ (J *ᵥ g)) + t * t * K := by
      rw [hK]
      simp only [sub_dotProduct, dotProduct_sub, smul_dotProduct, dotProduct_smul, smul_eq_mul]
      rw [dotProduct_comm (J *ᵥ g) r]; ring
    have e3 : r ⬝ᵥ (J *ᵥ g) = g ⬝ᵥ g := by
      rw [dotProduct_mulVec, hg, mulVec_transpose]
    rw [e2, e3] at this
    exact this
  have := hstep (g ⬝ᵥ g / (K + 1))
  have hK1 : 0 < K + 1 := by linarith
  have hq : 0 < g ⬝ᵥ g / (K + 1) := div_pos gpos hK1
  have e : g ⬝ᵥ g = (g ⬝ᵥ g / (K + 1)) * (K + 1) := by field_simp
  set t := g ⬝ᵥ g / (K + 1)
  rw [e] at this
  nlinarith [mul_pos hq hq]

/-- a solution of the normal equations is an optimum -/
theorem optimum_of_normal (J : Matrix m n ℝ) (y : m → ℝ) (v : n → ℝ) (h : Jᵀ *ᵥ (y + J *ᵥ v) = 0) (w : n → ℝ) :
    (y + J *ᵥ v) ⬝ᵥ (y + J *ᵥ v) ≤ (y + J *ᵥ w) ⬝ᵥ (y + J *ᵥ w) := by
  have e : y + J *ᵥ w = (y + J *ᵥ v) + J *ᵥ (w - v) := by rw [mulVec_sub]; abel
  have c : (y + J *ᵥ v) ⬝ᵥ (J *ᵥ (w - v)) = 0 := by rw [dotProduct_mulVec, ← mulVec_transpose, h, zero_dotProduct]
  rw [e]
  generalize y + J *ᵥ v = r at *
  rw [add_dotProduct, dotProduct_add, dotProduct_add, c, dotProduct_comm (J *ᵥ (w - v)) r, c]
  have : 0 ≤ (J *ᵥ (w - v)) ⬝ᵥ (J *ᵥ (w - v)) := by unfold dotProduct; exact Finset.sum_nonneg fun i _ => mul_self_nonneg _
  linarith

/-- JtJ is injective if J is -/
theorem gram_injective (J : Matrix m n ℝ) (hJ : ∀ v, J *ᵥ v = 0 → v = 0) (v : n → ℝ) (h : (Jᵀ * J) *ᵥ v = 0) : v = 0 := by
  refine hJ v (dotProduct_self_eq_zero.1 ?_)
  rw [dotProduct_mulVec, ← mulVec_transpose, mulVec_mulVec, h, zero_dotProduct]

variable [DecidableEq n]

/-- gt inv(M) g from the pieces of a factorization M = Pt L D Lt P: one solve with L and one with D. `a`, `b` are solutions with all of M -/
theorem ldl_form (M : Matrix n n ℝ) (hM : ∀ v, M *ᵥ v = 0 → v = 0) (σ : Equiv.Perm n) (L : Matrix n n ℝ) (D : n → ℝ)
    (hL : ∀ i j, M (σ i) (σ j) = ∑ k, L i k * D k * L j k) (g h a b g2 h2 h3 : n → ℝ) (ha : M *ᵥ a = g) (hb : M *ᵥ b = h)
    (hg2 : L *ᵥ g2 = fun i => g (σ i)) (hh2 : L *ᵥ h2 = fun i => h (σ i)) (hh3 : ∀ i, D i * h3 i = h2 i) : g2 ⬝ᵥ h3 = a ⬝ᵥ (M *ᵥ b) := by
  have hMs : M.submatrix σ σ = L * diagonal D * Lᵀ := by
    ext i j
    rw [submatrix_apply, hL, mul_apply]
    exact Finset.sum_congr rfl fun k _ => by rw [mul_diagonal, transpose_apply]
  have hdet : M.det ≠ 0 := by
    intro h0
    obtain ⟨v, hv, hv'⟩ := exists_mulVec_eq_zero_iff.2 h0
    exact hv (hM v hv')
  have hd : L.det ≠ 0 ∧ ∏ i, D i ≠ 0 := by
    have : M.det = L.det * (∏ i, D i) * L.det := by
      rw [← det_submatrix_equiv_self σ M, hMs, det_mul, det_mul, det_diagonal, det_transpose]
    rw [this] at hdet
    exact ⟨fun h => hdet (by rw [h]; ring), fun h => hdet (by rw [h]; ring)⟩
  have hD : ∀ i, D i ≠ 0 := fun i h => hd.2 (Finset.prod_eq_zero (Finset.mem_univ i) h)
  have hLinj : ∀ v w : n → ℝ, L *ᵥ v = L *ᵥ w → v = w := by
    intro v w hvw
    by_contra hne
    refine hd.1 (exists_mulVec_eq_zero_iff.1 ⟨v - w, sub_ne_zero.2 hne, ?_⟩)
    rw [mulVec_sub, hvw, sub_self]
  have perm : ∀ v : n → ℝ, (L * diagonal D * Lᵀ) *ᵥ (fun i => v (σ i)) = fun i => (M *ᵥ v) (σ i) := by
    intro v
    rw [← hMs]
    funext i
    unfold mulVec dotProduct
    simp only [submatrix_apply]
    exact Equiv.sum_comp σ fun j => M (σ i) j * v j
  have key : ∀ (v x x2 : n → ℝ), M *ᵥ v = x → L *ᵥ x2 = (fun i => x (σ i)) → x2 = diagonal D *ᵥ (Lᵀ *ᵥ fun i => v (σ i)) := by
    intro v x x2 hv hx
    refine hLinj _ _ ?_
    rw [hx, mulVec_mulVec, mulVec_mulVec, perm, hv]
  have k1 := key a g g2 ha hg2
  have k2 := key b h h2 hb hh2
  have k3 : h3 = Lᵀ *ᵥ fun i => b (σ i) := by
    funext i
    have := hh3 i
    rw [k2, mulVec_diagonal] at this
    exact mul_left_cancel₀ (hD i) this
  have e : a ⬝ᵥ (M *ᵥ b) = (fun i => a (σ i)) ⬝ᵥ fun i => (M *ᵥ b) (σ i) := (Equiv.sum_comp σ fun i => a i * (M *ᵥ b) i).symm
  rw [e, ← perm, k1, k3, Matrix.mul_assoc, ← mulVec_mulVec, ← mulVec_mulVec, dotProduct_mulVec (fun i => a (σ i)), ← mulVec_transpose]
  unfold dotProduct
  refine Finset.sum_congr rfl fun i _ => ?_
  rw [mulVec_diagonal, mulVec_diagonal]
  ring

end Mrcal.Propagate
