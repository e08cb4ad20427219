import Verif.Props.LensTotalProps
import Verif.Props.JacobianRowsProps
/-
The gradients reported by mrcal.project() describe what happens as the lens parameters and the point all move
-/
namespace Mrcal.Cam
open Mrcal.Project Mrcal.Callback Mrcal.Pose

theorem patch_add (n : Nat) (wx wy : Nat → ℝ) (base Nx k : Int) (A B : Int → ℝ) :
    Spline.patch n wx wy base Nx k (fun j => A j + B j) = Spline.patch n wx wy base Nx k A + Spline.patch n wx wy base Nx k B := by
  unfold Spline.patch
  simp only [mul_add, Finset.sum_add_distrib]

theorem patch_smul (n : Nat) (wx wy : Nat → ℝ) (base Nx k : Int) (c : ℝ) (A : Int → ℝ) :
    Spline.patch n wx wy base Nx k (fun j => c * A j) = c * Spline.patch n wx wy base Nx k A := by
  unfold Spline.patch
  simp only [Finset.mul_sum]
  exact Finset.sum_congr rfl fun r _ => Finset.sum_congr rfl fun c _ => by ring

theorem intrRate_add (L : Lens) (pr : Callback.Proj) (f : ℝ) (A B : Int → ℝ) (xy : Nat) :
    intrRate L pr f (fun j => A j + B j) xy = intrRate L pr f A xy + intrRate L pr f B xy := by
  unfold intrRate
  cases L with
  | splined order Nx Ny fov => simp only [patch_add]; ring
  | _ => simp only [mul_add, Finset.sum_add_distrib]; ring

theorem intrRate_smul (L : Lens) (pr : Callback.Proj) (f : ℝ) (c : ℝ) (A : Int → ℝ) (xy : Nat) :
    intrRate L pr f (fun j => c * A j) xy = c * intrRate L pr f A xy := by
  unfold intrRate
  cases L with
  | splined order Nx Ny fov => simp only [patch_smul]; ring
  | _ =>
    simp only [mul_add, Finset.mul_sum]
    have e : ∀ i, pr.nocore xy i * (c * A (4 + i)) = c * (pr.nocore xy i * A (4 + i)) := fun i => by ring
    simp only [e]
    ring

theorem intrRate_zero (L : Lens) (pr : Callback.Proj) (f : ℝ) (xy : Nat) : intrRate L pr f (fun _ => 0) xy = 0 := by
  have := intrRate_smul L pr f 0 (fun _ => 0) xy
  simpa using this

theorem intrRate_sum (L : Lens) (pr : Callback.Proj) (f : ℝ) (c : Nat → ℝ) (xy : Nat) (n : Nat) :
    intrRate L pr f (fun j => ∑ i ∈ Finset.range n, c i * Spline.unit i j) xy = ∑ i ∈ Finset.range n, c i * intrRate L pr f (Spline.unit i) xy := by
  induction n with
  | zero => simp only [Finset.range_zero, Finset.sum_empty]; exact intrRate_zero ..
  | succ n ih =>
    simp only [Finset.sum_range_succ]
    rw [intrRate_add, ih, intrRate_smul]

theorem sum_unit (I' : Int → ℝ) (n : Nat) (hs : ∀ k : Int, k < 0 ∨ (n : Int) ≤ k → I' k = 0) (j : Int) : I' j = ∑ i ∈ Finset.range n, I' (i : Nat) * Spline.unit i j := by
  by_cases hj : 0 ≤ j ∧ j < n
  · rw [Finset.sum_eq_single j.toNat]
    · unfold Spline.unit
      rw [Int.toNat_of_nonneg hj.1, if_pos rfl, mul_one]
    · intro i _ hne
      unfold Spline.unit
      rw [if_neg (by omega), mul_zero]
    · intro h
      exact absurd (Finset.mem_range.2 (by omega)) h
  · rw [hs j (by omega)]
    refine (Finset.sum_eq_zero fun i hi => ?_).symm
    have := Finset.mem_range.1 hi
    unfold Spline.unit
    rw [if_neg (by omega), mul_zero]

/-- the two pixel coordinates at a time: the reported gradients give the rate of change of the pixel, however the lens parameters and the point move -/
theorem pix_total (L : Lens) (hv : ValidLens L) (intr : Int → ℝ) (p0 : P3) (hreg : LensRegular L intr p0) (m m' : ProjMem)
    (h : mrcalProject L intr 1 (fun _ => p0) true true m = some m') {t : ℝ} {I : ℝ → Int → ℝ} {I' : Int → ℝ} (hI0 : I t = intr) (hI : ∀ k, HasDerivAt (fun s => I s k) (I' k) t)
    (hs : ∀ k, k < 0 ∨ L.numParams ≤ k → I' k = 0) {q : ℝ → P3} {q' : P3} (hq0 : q t = p0) (hq : HasDerivP q q' t) (xy : Nat) (hxy : xy < 2) :
    HasDerivAt (fun s => pick2 (pix L (I s) (q s)) xy)
      (inner3 (m'.dp xy) q' + ∑ col ∈ Finset.range L.numParams.toNat, m'.di (xy * L.numParams.toNat + col) * I' (col : Nat)) t := by
  subst hI0
  have h4 := StateLayout.numParams_ge4 L
  have hn : ((L.numParams.toNat : Nat) : Int) = L.numParams := Int.toNat_of_nonneg (by omega)
  obtain ⟨hj, -, -⟩ := project_gradients L hv (I t) 1 (fun _ => p0) m m' h
  obtain ⟨gx, gy, gi⟩ := hj 0 (by omega) hreg
  obtain ⟨o, ho⟩ : ∃ o : Project.Out, True := ⟨⟨⟨0, 0⟩, ⟨⟨0, 0, 0⟩, ⟨0, 0, 0⟩⟩, ⟨⟨0, 0, 0⟩, ⟨0, 0, 0⟩⟩, ⟨⟨0, 0, 0⟩, ⟨0, 0, 0⟩⟩, ⟨⟨0, 0, 0⟩, ⟨0, 0, 0⟩⟩, ⟨0, 0⟩, ⟨0, 0⟩⟩, trivial⟩
  have full := (lens_rate L hv hI p0 hreg o).2 q q' hq0 hq
  -- the gradient with respect to the point
  have cst : ∀ (τ : ℝ) (c : ℝ → P3) (v : P3), c τ = p0 → HasDerivP c v τ →
      HasDerivAt (fun s => (pix L (I t) (c s)).x) (inner3 (hypothesis L (I t) p0).dqx v) τ ∧ HasDerivAt (fun s => (pix L (I t) (c s)).y) (inner3 (hypothesis L (I t) p0).dqy v) τ := by
    intro τ c v hc hd
    have k := (lens_rate L hv (I := fun _ => I t) (I' := fun _ => 0) (t := τ) (fun _ => hasDerivAt_const _ _) p0 hreg o).2 c v hc hd
    rw [intrRate_zero, intrRate_zero, add_zero, add_zero] at k
    exact k
  have ex : (hypothesis L (I t) p0).dqx = m'.dp 0 := by
    refine GradAt.unique (f := fun p => (pix L (I t) p).x) (p := p0) ?_ gx
    intro c v τ hc h1 h2 h3
    exact (cst τ c v hc ⟨h1, h2, h3⟩).1
  have ey : (hypothesis L (I t) p0).dqy = m'.dp 1 := by
    refine GradAt.unique (f := fun p => (pix L (I t) p).y) (p := p0) ?_ gy
    intro c v τ hc h1 h2 h3
    exact (cst τ c v hc ⟨h1, h2, h3⟩).2
  -- the gradient with respect to each parameter
  have one : ∀ col : Nat, col < L.numParams.toNat → intrRate L (mkProj L (I t) p0 o) (I t 0) (Spline.unit col) 0 = m'.di (0 * L.numParams.toNat + col) ∧
      intrRate L (mkProj L (I t) p0 o) (I t 1) (Spline.unit col) 1 = m'.di (1 * L.numParams.toNat + col) := by
    intro col hcol
    have hu : ∀ k, HasDerivAt (fun s => Function.update (I t) (col : Int) s k) (Spline.unit col k) (I t col) := by
      intro k
      unfold Spline.unit
      by_cases hk : k = (col : Int)
      · subst hk
        rw [if_pos rfl]
        simp only [Function.update_self]
        exact hasDerivAt_id' _
      · rw [if_neg hk]
        simp only [Function.update_of_ne hk]
        exact hasDerivAt_const _ _
    have e : Function.update (I t) (col : Int) (I t col) = I t := Function.update_eq_self _ _
    have k := (lens_rate L hv (I := fun s => Function.update (I t) (col : Int) s) (t := I t col) hu p0 (by simp only [e]; exact hreg) o).2 (fun _ => p0) ⟨0, 0, 0⟩ rfl
      ⟨hasDerivAt_const _ _, hasDerivAt_const _ _, hasDerivAt_const _ _⟩
    simp only [e] at k
    obtain ⟨g0, g1⟩ := gi col hcol
    constructor
    · have := k.1.unique g0
      simpa [inner3] using this
    · have := k.2.unique g1
      simpa [inner3] using this
  have rate : ∀ (f : ℝ) (xy : Nat), intrRate L (mkProj L (I t) p0 o) f I' xy = ∑ i ∈ Finset.range L.numParams.toNat, I' (i : Nat) * intrRate L (mkProj L (I t) p0 o) f (Spline.unit i) xy := by
    intro f xy
    rw [← intrRate_sum]
    congr 1
    funext j
    exact sum_unit I' _ (fun k hk => hs k (by omega)) j
  rw [rate, rate] at full
  have hxy' : xy = 0 ∨ xy = 1 := by omega
  rcases hxy' with rfl | rfl
  · refine HasDerivAt.congr_deriv full.1 ?_
    rw [ex]
    congr 1
    refine Finset.sum_congr rfl fun i hi => ?_
    rw [(one i (Finset.mem_range.1 hi)).1, mul_comm]
  · refine HasDerivAt.congr_deriv full.2 ?_
    rw [ey]
    congr 1
    refine Finset.sum_congr rfl fun i hi => ?_
    rw [(one i (Finset.mem_range.1 hi)).2, mul_comm]

end Mrcal.Cam
