import Verif.Model.Geom
import Mathlib.Analysis.Calculus.Deriv.Add
import Mathlib.Analysis.Calculus.Deriv.Pow
import Mathlib.Analysis.Calculus.Deriv.Mul
import Mathlib.Analysis.Calculus.Deriv.Inv
import Mathlib.Analysis.Calculus.Deriv.Prod
import Mathlib.Analysis.Calculus.Deriv.Comp
import Mathlib.Analysis.SpecialFunctions.Sqrt
import Mathlib.Tactic.Linarith
import Mathlib.Tactic.Ring
import Mathlib.Tactic.FieldSimp
import Mathlib.Tactic.LinearCombination
import Mathlib.Tactic.Positivity
/-
What "the reported gradient is right" means, and tools to prove it.
-/
namespace Mrcal

/-- **Specification.** `(gx,gy,gz)` is the gradient of `f` at `p`: moving the point along ANY differentiable path
through `p` with the velocity (vx,vy,vz) moves `f` at the rate gx vx + gy vy + gz vz. -/
def GradAt (f : P3 → ℝ) (g : P3) (p : P3) : Prop :=
  ∀ (c : ℝ → P3) (v : P3) (t : ℝ), c t = p →
    HasDerivAt (fun s => (c s).x) v.x t → HasDerivAt (fun s => (c s).y) v.y t → HasDerivAt (fun s => (c s).z) v.z t →
    HasDerivAt (fun s => f (c s)) (g.x * v.x + g.y * v.y + g.z * v.z) t

/-- same for a function of 2 variables -/
def GradAt2 (f : P2 → ℝ) (g : P2) (p : P2) : Prop :=
  ∀ (c : ℝ → P2) (v : P2) (t : ℝ), c t = p →
    HasDerivAt (fun s => (c s).x) v.x t → HasDerivAt (fun s => (c s).y) v.y t →
    HasDerivAt (fun s => f (c s)) (g.x * v.x + g.y * v.y) t

/-- The specification isn't vacuous: the gradient is unique -/
theorem GradAt.unique {f : P3 → ℝ} {g h p : P3} (hg : GradAt f g p) (hh : GradAt f h p) : g = h := by
  have key : ∀ v : P3, g.x * v.x + g.y * v.y + g.z * v.z = h.x * v.x + h.y * v.y + h.z * v.z := by
    intro v
    have hx : HasDerivAt (fun s : ℝ => (⟨p.x + s * v.x, p.y + s * v.y, p.z + s * v.z⟩ : P3).x) v.x 0 := by
      simpa using ((hasDerivAt_id (0 : ℝ)).mul_const v.x).const_add p.x
    have hy : HasDerivAt (fun s : ℝ => (⟨p.x + s * v.x, p.y + s * v.y, p.z + s * v.z⟩ : P3).y) v.y 0 := by
      simpa using ((hasDerivAt_id (0 : ℝ)).mul_const v.y).const_add p.y
    have hz : HasDerivAt (fun s : ℝ => (⟨p.x + s * v.x, p.y + s * v.y, p.z + s * v.z⟩ : P3).z) v.z 0 := by
      simpa using ((hasDerivAt_id (0 : ℝ)).mul_const v.z).const_add p.z
    have e : (⟨p.x + 0 * v.x, p.y + 0 * v.y, p.z + 0 * v.z⟩ : P3) = p := by
      ext <;> simp
    exact (hg _ v 0 e hx hy hz).unique (hh _ v 0 e hx hy hz)
  have k1 := key ⟨1, 0, 0⟩
  have k2 := key ⟨0, 1, 0⟩
  have k3 := key ⟨0, 0, 1⟩
  simp only [mul_one, mul_zero, add_zero, zero_add] at k1 k2 k3
  ext <;> assumption

/-- a differentiable function of two variables, along a path -/
theorem hasDerivAt_curve2 {f : ℝ × ℝ → ℝ} {x y fx fy : ℝ} (hf : DifferentiableAt ℝ f (x, y))
    (hx : HasDerivAt (fun s => f (s, y)) fx x) (hy : HasDerivAt (fun s => f (x, s)) fy y)
    {X Y : ℝ → ℝ} {X' Y' t : ℝ} (hX : HasDerivAt X X' t) (hY : HasDerivAt Y Y' t) (ex : X t = x) (ey : Y t = y) :
    HasDerivAt (fun s => f (X s, Y s)) (fx * X' + fy * Y') t := by
  set L := fderiv ℝ f (x, y)
  have hL : HasFDerivAt f L (x, y) := hf.hasFDerivAt
  have h1 : HasDerivAt (fun s => f (s, y)) (L (1, 0)) x :=
    HasFDerivAt.comp_hasDerivAt x (f := fun s : ℝ => (s, y)) (l := f) (l' := L) (by simpa using hL)
      ((hasDerivAt_id x).prodMk (hasDerivAt_const x y))
  have h2 : HasDerivAt (fun s => f (x, s)) (L (0, 1)) y :=
    HasFDerivAt.comp_hasDerivAt y (f := fun s : ℝ => (x, s)) (l := f) (l' := L) (by simpa using hL)
      ((hasDerivAt_const y x).prodMk (hasDerivAt_id y))
  have h3 : HasDerivAt (fun s => f (X s, Y s)) (L (X', Y')) t :=
    HasFDerivAt.comp_hasDerivAt t (f := fun s : ℝ => (X s, Y s)) (l := f) (l' := L) (by rw [ex, ey]; exact hL)
      (hX.prodMk hY)
  have e : L (X', Y') = fx * X' + fy * Y' := by
    have : (X', Y') = X' • ((1, 0) : ℝ × ℝ) + Y' • ((0, 1) : ℝ × ℝ) := by simp
    rw [this, map_add, map_smul, map_smul, h1.unique hx, h2.unique hy]
    simp only [smul_eq_mul]; ring
  rw [e] at h3
  exact h3

/-- the length of a vector -/
noncomputable def mag3 (p : P3) : ℝ := Real.sqrt (p.x * p.x + p.y * p.y + p.z * p.z)

theorem mag3_sq (p : P3) : mag3 p * mag3 p = p.x * p.x + p.y * p.y + p.z * p.z :=
  Real.mul_self_sqrt (by nlinarith [mul_self_nonneg p.x, mul_self_nonneg p.y, mul_self_nonneg p.z])

theorem mag3_nonneg (p : P3) : 0 ≤ mag3 p := Real.sqrt_nonneg _

theorem mag3_deriv {c : ℝ → P3} {v : P3} {t : ℝ} (h : mag3 (c t) ≠ 0)
    (hx : HasDerivAt (fun s => (c s).x) v.x t) (hy : HasDerivAt (fun s => (c s).y) v.y t)
    (hz : HasDerivAt (fun s => (c s).z) v.z t) :
    HasDerivAt (fun s => mag3 (c s)) (((c t).x * v.x + (c t).y * v.y + (c t).z * v.z) / mag3 (c t)) t := by
  have h1 := ((hx.mul hx).add (hy.mul hy)).add (hz.mul hz)
  have h0 : (c t).x * (c t).x + (c t).y * (c t).y + (c t).z * (c t).z ≠ 0 := by
    rw [← mag3_sq]; exact mul_ne_zero h h
  have h2 := HasDerivAt.sqrt h1 h0
  refine HasDerivAt.congr_deriv h2 ?_
  show _ / (2 * mag3 (c t)) = _
  field_simp
  ring

end Mrcal
