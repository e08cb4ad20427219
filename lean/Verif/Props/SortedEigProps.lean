import Verif.Model.SortedEig
import Mathlib.Analysis.Matrix.PosDef
import Mathlib.Tactic.LinearCombination
import Mathlib.Tactic.FieldSimp
import Mathlib.Data.Fin.Tuple.Sort
/-
C123: sorted_eig(), and what is reported and plotted with it: the worst direction, covariance ellipses
-/
namespace Mrcal.SortedEig

open Mrcal Matrix

variable {n : Nat}

/-- **Specification**: eigenvalues, and unit eigenvectors in the columns -/
def IsEig (M : Mat n) (e : (Fin n → ℝ) × Mat n) : Prop :=
  ∀ k, (∀ r, ∑ c, M r c * e.2 c k = e.1 k * e.2 r k) ∧ ∑ r, e.2 r k ^ 2 = 1

/-- **Specification**: the order of ascending values -/
def IsArgsort (s : (Fin n → ℝ) → Fin n → Fin n) : Prop := ∀ l, Function.Bijective (s l) ∧ ∀ i j, i ≤ j → l (s l i) ≤ l (s l j)

/-- **C123**: sorted_eig() returns the same eigenvalues with the same eigenvectors, in ascending order -/
theorem sorted_pairs (L : Lib n) (hs : IsArgsort L.argsort) (M : Mat n) :
    Monotone (sortedEig L M).1 ∧ ∃ p : Equiv.Perm (Fin n), ∀ k, (sortedEig L M).1 k = (L.eig M).1 (p k) ∧ ∀ r, (sortedEig L M).2 r k = (L.eig M).2 r (p k) := by
  refine ⟨fun i j hij => (hs _).2 i j hij, Equiv.ofBijective _ (hs (L.eig M).1).1, fun k => ⟨rfl, fun r => rfl⟩⟩

/-- **C123**: each column is a unit eigenvector, for its eigenvalue -/
theorem sorted_eigen (L : Lib n) (M : Mat n) (h : IsEig M (L.eig M)) : IsEig M (sortedEig L M) := fun _ => h _

theorem rayleigh (M v : Mat n) (l : Fin n → ℝ) (hM : M.transpose = M) (hv : v.det ≠ 0) (he : ∀ k r, ∑ c, M r c * v c k = l k * v r k) (c : ℝ) (hc : ∀ k, l k ≤ c) (u : Fin n → ℝ) :
    u ⬝ᵥ (M *ᵥ u) ≤ c * (u ⬝ᵥ u) := by
  have hA : (c • (1 : Mat n) - M).IsHermitian := by
    show (c • (1 : Mat n) - M).conjTranspose = _
    rw [conjTranspose_eq_transpose_of_trivial, transpose_sub, transpose_smul, transpose_one, hM]
  have hMv : M * v = v * diagonal l := by
    ext r k
    rw [mul_diagonal, mul_apply, he, mul_comm]
  have hp : (c • (1 : Mat n) - M).PosSemidef := by
    rw [hA.posSemidef_iff_eigenvalues_nonneg]
    intro j
    show 0 ≤ hA.eigenvalues j
    have hw := hA.mulVec_eigenvectorBasis j
    generalize hA.eigenvalues j = e at hw
    have hne : (hA.eigenvectorBasis j) ≠ 0 := hA.eigenvectorBasis.orthonormal.ne_zero j
    have hne' : (⇑(hA.eigenvectorBasis j) : Fin n → ℝ) ≠ 0 := by
      intro h0
      apply hne
      ext i
      exact congrFun h0 i
    generalize (⇑(hA.eigenvectorBasis j) : Fin n → ℝ) = w at hw hne'
    have hunit : IsUnit v.det := isUnit_iff_ne_zero.2 hv
    obtain ⟨α, hα⟩ : ∃ α, v *ᵥ α = w := ⟨v⁻¹ *ᵥ w, by rw [mulVec_mulVec, mul_nonsing_inv v hunit, one_mulVec]⟩
    have hMw : M *ᵥ w = (c - e) • w := by
      rw [sub_mulVec, smul_mulVec, one_mulVec] at hw
      rw [sub_smul, ← hw]; abel
    have h1 : v *ᵥ (diagonal l *ᵥ α) = v *ᵥ ((c - e) • α) := by
      rw [mulVec_smul, hα, ← hMw, ← hα, mulVec_mulVec, mulVec_mulVec, hMv]
    have h2 : diagonal l *ᵥ α = (c - e) • α := by
      have := congrArg (fun x => v⁻¹ *ᵥ x) h1
      simpa only [mulVec_mulVec, ← mul_assoc, nonsing_inv_mul v hunit, one_mulVec, one_mul] using this
    obtain ⟨k, hk⟩ : ∃ k, α k ≠ 0 := by
      by_contra hcon
      push Not at hcon
      apply hne'
      rw [← hα, show α = 0 from funext hcon, mulVec_zero]
    have h3 := congrFun h2 k
    rw [mulVec_diagonal, Pi.smul_apply, smul_eq_mul] at h3
    have := mul_right_cancel₀ hk h3
    linarith [hc k]
  have h := hp.dotProduct_mulVec_nonneg u
  rw [star_trivial, sub_mulVec, smul_mulVec, one_mulVec, dotProduct_sub, dotProduct_smul, smul_eq_mul] at h
  linarith

theorem perm_det (v : Mat n) (p : Equiv.Perm (Fin n)) (h : v.det ≠ 0) : (Matrix.of fun r k => v r (p k)).det ≠ 0 := by
  have : (Matrix.of fun r k => v r (p k)) = v.submatrix id p := rfl
  rw [this, det_permute']
  exact mul_ne_zero (by rcases Int.units_eq_one_or p.sign with e | e <;> rw [e] <;> simp) h

/-- **Specification**: what numpy.linalg.eig() gives for a symmetric matrix: the eigenvectors are independent. They don't have to be orthogonal, if eigenvalues are equal -/
def GoodEig (L : Lib n) (M : Mat n) : Prop := IsEig M (L.eig M) ∧ (L.eig M).2.det ≠ 0

/-- **C123**: for a symmetric matrix the first column is the direction where the quadratic form is smallest, the last one where it's largest -/
theorem extremes (L : Lib (n + 1)) (hs : IsArgsort L.argsort) (M : Mat (n + 1)) (hM : ∀ r c, M r c = M c r) (h : GoodEig L M) :
    let q := fun u : Fin (n + 1) → ℝ => ∑ r, ∑ c, u r * M r c * u c
    q (fun r => (sortedEig L M).2 r 0) = (sortedEig L M).1 0 ∧ q (fun r => (sortedEig L M).2 r (Fin.last n)) = (sortedEig L M).1 (Fin.last n) ∧
    ∀ u, ∑ r, u r ^ 2 = 1 → (sortedEig L M).1 0 ≤ q u ∧ q u ≤ (sortedEig L M).1 (Fin.last n) := by
  intro q
  have he := sorted_eigen L M h.1
  obtain ⟨hm, p, hp⟩ := sorted_pairs L hs M
  have hq : ∀ u, q u = u ⬝ᵥ (M *ᵥ u) := by
    intro u
    simp only [q, dotProduct, mulVec, Finset.mul_sum, mul_assoc]
  have hcol : ∀ k, q (fun r => (sortedEig L M).2 r k) = (sortedEig L M).1 k := by
    intro k
    obtain ⟨h1, h2⟩ := he k
    have : q (fun r => (sortedEig L M).2 r k) = ∑ r, (sortedEig L M).2 r k * ∑ c, M r c * (sortedEig L M).2 c k := by
      simp only [q, Finset.mul_sum, mul_assoc]
    rw [this]
    simp only [h1]
    calc ∑ r, (sortedEig L M).2 r k * ((sortedEig L M).1 k * (sortedEig L M).2 r k) = (sortedEig L M).1 k * ∑ r, (sortedEig L M).2 r k ^ 2 := by
          rw [Finset.mul_sum]
          exact Finset.sum_congr rfl fun r _ => by ring
      _ = _ := by rw [h2, mul_one]
  have hdet : (sortedEig L M).2.det ≠ 0 := by
    have := perm_det _ p h.2
    have e : (Matrix.of fun r k => (L.eig M).2 r (p k)) = (sortedEig L M).2 := by
      ext r k
      exact ((hp k).2 r).symm
    rwa [e] at this
  have hsym : M.transpose = M := by
    ext r c
    exact hM c r
  refine ⟨hcol 0, hcol _, fun u hu => ?_⟩
  have huu : u ⬝ᵥ u = 1 := by
    rw [← hu]
    exact Finset.sum_congr rfl fun r _ => by ring
  constructor
  · have := rayleigh (-M) (sortedEig L M).2 (fun k => -(sortedEig L M).1 k) (by rw [transpose_neg, hsym]) hdet (by
      intro k r
      have := (he k).1 r
      calc ∑ c, (-M) r c * (sortedEig L M).2 c k = -∑ c, M r c * (sortedEig L M).2 c k := by
            rw [← Finset.sum_neg_distrib]
            exact Finset.sum_congr rfl fun c _ => by rw [neg_apply]; ring
        _ = _ := by rw [this]; ring) (-(sortedEig L M).1 0) (fun k => neg_le_neg (hm (Fin.zero_le k))) u
    rw [huu, neg_mulVec, dotProduct_neg] at this
    rw [hq]; linarith
  · have := rayleigh M (sortedEig L M).2 (sortedEig L M).1 hsym hdet (fun k r => (he k).1 r) ((sortedEig L M).1 (Fin.last n)) (fun k => hm (Fin.le_last k)) u
    rw [huu] at this
    rw [hq]; linarith

/-- **C123**: mrcal-triangulate: "worst confidence of sigma along v": the standard deviation in the direction v is sigma, and in no direction it's larger -/
theorem worst_direction (L : Lib 3) (hs : IsArgsort L.argsort) (V : Mat 3) (hV : ∀ r c, V r c = V c r) (hpos : ∀ u : Fin 3 → ℝ, 0 ≤ ∑ r, ∑ c, u r * V r c * u c) (h : GoodEig L V) :
    ∑ r, (worst L V).2 r ^ 2 = 1 ∧ Real.sqrt (∑ r, ∑ c, (worst L V).2 r * V r c * (worst L V).2 c) = (worst L V).1 ∧
    ∀ u : Fin 3 → ℝ, ∑ r, u r ^ 2 = 1 → Real.sqrt (∑ r, ∑ c, u r * V r c * u c) ≤ (worst L V).1 ∧ ∑ r, ∑ c, u r * V r c * u c ≤ (worst L V).1 ^ 2 := by
  obtain ⟨-, h1, h2⟩ := extremes L hs V hV h
  have hw : (worst L V).1 = Real.sqrt ((sortedEig L V).1 (Fin.last 2)) := rfl
  have hw2 : (worst L V).2 = fun r => (sortedEig L V).2 r (Fin.last 2) := rfl
  refine ⟨?_, ?_, fun u hu => ?_⟩
  · rw [hw2]; exact (sorted_eigen L V h.1 _).2
  · rw [hw, hw2]; exact congrArg Real.sqrt h1
  · have h3 := (h2 u hu).2
    rw [hw]
    refine ⟨Real.sqrt_le_sqrt h3, ?_⟩
    rw [Real.sq_sqrt (le_trans (hpos u) h3)]
    exact h3

/-- **C123**: mrcal-triangulate: the variance that's plotted in the plane is the variance of the 3D point, seen in the directions of the plane -/
theorem plane_variance (R : Matrix (Fin 2) (Fin 3) ℝ) (V : Mat 3) (w : Fin 2 → ℝ) :
    ∑ r, ∑ c, w r * planeVar R V r c * w c = ∑ r, ∑ c, (∑ k, w k * R k r) * V r c * (∑ k, w k * R k c) := by
  simp only [planeVar, mul_apply, transpose_apply, Fin.sum_univ_succ, Fin.sum_univ_zero, add_zero]
  ring

/-! ### ellipses -/

/-- **Specification**: the points of an ellipse that gnuplot draws: the first diameter is at the angle, the second one is perpendicular -/
def Drawn (e : Ellipse) (x y : ℝ) : Prop :=
  ∃ t : ℝ, x = e.x + e.d0 / 2 * Real.cos t * Real.cos (Real.pi / 180 * e.angle) - e.d1 / 2 * Real.sin t * Real.sin (Real.pi / 180 * e.angle) ∧
           y = e.y + e.d0 / 2 * Real.cos t * Real.sin (Real.pi / 180 * e.angle) + e.d1 / 2 * Real.sin t * Real.cos (Real.pi / 180 * e.angle)

theorem angle_of (x y : ℝ) (h : x ^ 2 + y ^ 2 = 1) : Real.cos (Complex.arg ⟨x, y⟩) = x ∧ Real.sin (Complex.arg ⟨x, y⟩) = y := by
  have hn : ‖(⟨x, y⟩ : ℂ)‖ = 1 := by
    rw [Complex.norm_def, Complex.normSq_mk, show x * x + y * y = 1 by linarith [sq x, sq y], Real.sqrt_one]
  have h0 : (⟨x, y⟩ : ℂ) ≠ 0 := by
    intro h0
    rw [h0, norm_zero] at hn
    exact zero_ne_one hn
  constructor
  · rw [Complex.cos_arg h0, hn, div_one]
  · rw [Complex.sin_arg, hn, div_one]

/-- the matrix in terms of its first eigenvector, also if the second one isn't perpendicular -/
theorem decompose (a b c x y x1 y1 l0 l1 : ℝ) (hu : x ^ 2 + y ^ 2 = 1) (h1 : a * x + b * y = l0 * x) (h2 : b * x + c * y = l0 * y) (h3 : a * x1 + b * y1 = l1 * x1) (h4 : b * x1 + c * y1 = l1 * y1)
    (hd : x * y1 - x1 * y ≠ 0) : a = l0 * x ^ 2 + l1 * y ^ 2 ∧ b = (l0 - l1) * x * y ∧ c = l0 * y ^ 2 + l1 * x ^ 2 := by
  have ht : a + c = l0 + l1 := by
    refine mul_right_cancel₀ hd ?_
    linear_combination y1 * h1 - x1 * h2 - y * h3 + x * h4
  have hb : b = (l0 - l1) * x * y := by
    linear_combination (-b) * hu + y * h1 + x * h2 - x * y * ht
  refine ⟨?_, hb, ?_⟩
  · linear_combination (-a) * hu + x * h1 - x * y * hb + y ^ 2 * ht - y * h2 + x * y * hb
  · linear_combination ht - ((-a) * hu + x * h1 - x * y * hb + y ^ 2 * ht - y * h2 + x * y * hb) - (l0 + l1) * hu

theorem det2 (v : Mat 2) : v.det = v 0 0 * v 1 1 - v 0 1 * v 1 0 := det_fin_two v

/-- what the ellipse is made of -/
theorem ellipse_parts (L : Lib 2) (hs : IsArgsort L.argsort) (V : Mat 2) (hV : V 1 0 = V 0 1) (h : GoodEig L V) (h0 : V ≠ 0) (cx cy : ℝ) :
    ∃ l0 l1 x y : ℝ, x ^ 2 + y ^ 2 = 1 ∧ V 0 0 = l0 * x ^ 2 + l1 * y ^ 2 ∧ V 0 1 = (l0 - l1) * x * y ∧ V 1 1 = l0 * y ^ 2 + l1 * x ^ 2 ∧
    ∃ e, ellipseArg L cx cy V = some e ∧ ∀ px py, Drawn e px py ↔ ∃ t, px - cx = Real.sqrt l0 * Real.cos t * x - Real.sqrt l1 * Real.sin t * y ∧ py - cy = Real.sqrt l0 * Real.cos t * y + Real.sqrt l1 * Real.sin t * x := by
  have he := sorted_eigen L V h.1
  obtain ⟨-, p, hp⟩ := sorted_pairs L hs V
  have hdet : (sortedEig L V).2.det ≠ 0 := by
    have := perm_det _ p h.2
    have e : (Matrix.of fun r k => (L.eig V).2 r (p k)) = (sortedEig L V).2 := by
      ext r k
      exact ((hp k).2 r).symm
    rwa [e] at this
  rw [det2] at hdet
  have g0 := (he 0).1 0
  have g1 := (he 0).1 1
  have g2 := (he 1).1 0
  have g3 := (he 1).1 1
  have gu := (he 0).2
  simp only [Fin.sum_univ_two] at g0 g1 g2 g3 gu
  rw [hV] at g1 g3
  obtain ⟨d1, d2, d3⟩ := decompose _ _ _ _ _ _ _ _ _ gu g0 g1 g2 g3 hdet
  obtain ⟨c1, c2⟩ := angle_of _ _ gu
  refine ⟨_, _, _, _, gu, d1, d2, d3, _, by unfold ellipseArg; rw [if_neg h0], fun px py => ?_⟩
  unfold Drawn
  dsimp only
  have ha : Real.pi / 180 * (180 / Real.pi * Complex.arg ⟨(sortedEig L V).2 0 0, (sortedEig L V).2 1 0⟩) = Complex.arg ⟨(sortedEig L V).2 0 0, (sortedEig L V).2 1 0⟩ := by
    have := Real.pi_ne_zero
    field_simp
  rw [ha, c1, c2]
  constructor
  · rintro ⟨t, e1, e2⟩
    exact ⟨t, by rw [e1]; ring, by rw [e2]; ring⟩
  · rintro ⟨t, e1, e2⟩
    exact ⟨t, by linear_combination e1, by linear_combination e2⟩

theorem inverse_form (V : Mat 2) (hV : V 1 0 = V 0 1) (hd : V 0 0 * V 1 1 - V 0 1 ^ 2 ≠ 0) (x y : ℝ) :
    ∑ r, ∑ c, ![x, y] r * V⁻¹ r c * ![x, y] c = (V 1 1 * x ^ 2 - 2 * V 0 1 * x * y + V 0 0 * y ^ 2) / (V 0 0 * V 1 1 - V 0 1 ^ 2) := by
  have hi : ∀ r c, V⁻¹ r c = (V 0 0 * V 1 1 - V 0 1 ^ 2)⁻¹ * (!![V 1 1, -V 0 1; -V 1 0, V 0 0] : Mat 2) r c := by
    intro r c
    rw [inv_def, adjugate_fin_two, det_fin_two, hV, show V 0 0 * V 1 1 - V 0 1 * V 0 1 = V 0 0 * V 1 1 - V 0 1 ^ 2 by ring, Ring.inverse_eq_inv', Matrix.smul_apply, smul_eq_mul]
  simp only [hi, Fin.sum_univ_two, of_apply, cons_val', cons_val_zero, cons_val_one, cons_val_fin_one, hV]
  field_simp
  ring

/-- **C123**: the ellipse that's plotted for a mean and a variance is the contour at one standard deviation: the points p with (p-mean)ᵗ Var⁻¹ (p-mean) = 1 -/
theorem ellipse_contour (L : Lib 2) (hs : IsArgsort L.argsort) (V : Mat 2) (hV : V 1 0 = V 0 1) (h : GoodEig L V) (hp0 : 0 < V 0 0) (hp1 : 0 < V 0 0 * V 1 1 - V 0 1 ^ 2) (cx cy : ℝ) :
    ∃ e, ellipseArg L cx cy V = some e ∧ ∀ px py, Drawn e px py ↔ ∑ r, ∑ c, ![px - cx, py - cy] r * V⁻¹ r c * ![px - cx, py - cy] c = 1 := by
  have h0 : V ≠ 0 := by
    rintro rfl
    simp at hp0
  obtain ⟨l0, l1, x, y, hu, ha, hb, hc, e, he, hD⟩ := ellipse_parts L hs V hV h h0 cx cy
  refine ⟨e, he, fun px py => ?_⟩
  rw [hD, inverse_form V hV hp1.ne', div_eq_one_iff_eq hp1.ne']
  have hdet : V 0 0 * V 1 1 - V 0 1 ^ 2 = l0 * l1 := by
    rw [ha, hb, hc]
    linear_combination l0 * l1 * (x ^ 2 + y ^ 2 + 1) * hu
  have hc0 : 0 < V 1 1 := by
    by_contra hn
    nlinarith [sq_nonneg (V 0 1)]
  have htr : V 0 0 + V 1 1 = l0 + l1 := by
    rw [ha, hc]
    linear_combination (l0 + l1) * hu
  have hl : 0 < l0 ∧ 0 < l1 := by
    rw [hdet] at hp1
    rcases pos_and_pos_or_neg_and_neg_of_mul_pos hp1 with g | ⟨g, g'⟩
    · exact g
    · linarith
  obtain ⟨s0, hs0⟩ : ∃ s, s = Real.sqrt l0 := ⟨_, rfl⟩
  obtain ⟨s1, hs1⟩ : ∃ s, s = Real.sqrt l1 := ⟨_, rfl⟩
  have p0 : 0 < s0 := hs0 ▸ Real.sqrt_pos.2 hl.1
  have p1 : 0 < s1 := hs1 ▸ Real.sqrt_pos.2 hl.2
  have q0 : s0 ^ 2 = l0 := hs0 ▸ Real.sq_sqrt hl.1.le
  have q1 : s1 ^ 2 = l1 := hs1 ▸ Real.sq_sqrt hl.2.le
  rw [← hs0, ← hs1, hdet, ha, hb, hc]
  generalize px - cx = dx
  generalize py - cy = dy
  have key : (l0 * y ^ 2 + l1 * x ^ 2) * dx ^ 2 - 2 * ((l0 - l1) * x * y) * dx * dy + (l0 * x ^ 2 + l1 * y ^ 2) * dy ^ 2 = l1 * (dx * x + dy * y) ^ 2 + l0 * (dy * x - dx * y) ^ 2 := by ring
  rw [key]
  constructor
  · rintro ⟨t, e1, e2⟩
    have f1 : dx * x + dy * y = s0 * Real.cos t := by
      rw [e1, e2]
      linear_combination s0 * Real.cos t * hu
    have f2 : dy * x - dx * y = s1 * Real.sin t := by
      rw [e1, e2]
      linear_combination s1 * Real.sin t * hu
    rw [f1, f2, ← q0, ← q1]
    linear_combination s0 ^ 2 * s1 ^ 2 * Real.sin_sq_add_cos_sq t
  · intro hq
    have hn : ((dx * x + dy * y) / s0) ^ 2 + ((dy * x - dx * y) / s1) ^ 2 = 1 := by
      rw [← q0, ← q1] at hq
      field_simp
      linear_combination hq
    obtain ⟨t, t1, t2⟩ : ∃ t, Real.cos t = (dx * x + dy * y) / s0 ∧ Real.sin t = (dy * x - dx * y) / s1 := ⟨_, angle_of _ _ hn⟩
    refine ⟨t, ?_, ?_⟩
    · rw [t1, t2, mul_div_cancel₀ _ p0.ne', mul_div_cancel₀ _ p1.ne']
      linear_combination (-dx) * hu
    · rw [t1, t2, mul_div_cancel₀ _ p0.ne', mul_div_cancel₀ _ p1.ne']
      linear_combination (-dy) * hu

/-- **C123**: in each direction w the ellipse ends at one standard deviation from the mean: also for variances that aren't invertible -/
theorem ellipse_extent (L : Lib 2) (hs : IsArgsort L.argsort) (V : Mat 2) (hV : V 1 0 = V 0 1) (h : GoodEig L V) (hpos : ∀ u : Fin 2 → ℝ, 0 ≤ ∑ r, ∑ c, u r * V r c * u c) (h0 : V ≠ 0) (cx cy : ℝ) :
    ∃ e, ellipseArg L cx cy V = some e ∧ ∀ w : Fin 2 → ℝ,
      (∀ px py, Drawn e px py → w 0 * (px - cx) + w 1 * (py - cy) ≤ Real.sqrt (∑ r, ∑ c, w r * V r c * w c)) ∧
      ∃ px py, Drawn e px py ∧ w 0 * (px - cx) + w 1 * (py - cy) = Real.sqrt (∑ r, ∑ c, w r * V r c * w c) := by
  obtain ⟨l0, l1, x, y, hu, ha, hb, hc, e, he, hD⟩ := ellipse_parts L hs V hV h h0 cx cy
  refine ⟨e, he, fun w => ?_⟩
  have hl0 : 0 ≤ l0 := by
    have := hpos ![x, y]
    simp only [Fin.sum_univ_two, cons_val_zero, cons_val_one, hV, ha, hb, hc] at this
    have e1 : l0 = l0 * (x ^ 2 + y ^ 2) ^ 2 := by rw [hu]; ring
    rw [e1]
    refine le_of_le_of_eq this ?_
    ring
  have hl1 : 0 ≤ l1 := by
    have := hpos ![-y, x]
    simp only [Fin.sum_univ_two, cons_val_zero, cons_val_one, hV, ha, hb, hc] at this
    have e1 : l1 = l1 * (x ^ 2 + y ^ 2) ^ 2 := by rw [hu]; ring
    rw [e1]
    refine le_of_le_of_eq this ?_
    ring
  obtain ⟨A, hA⟩ : ∃ A, A = Real.sqrt l0 * (w 0 * x + w 1 * y) := ⟨_, rfl⟩
  obtain ⟨B, hB⟩ : ∃ B, B = Real.sqrt l1 * (w 1 * x - w 0 * y) := ⟨_, rfl⟩
  have hform : ∑ r, ∑ c, w r * V r c * w c = A ^ 2 + B ^ 2 := by
    rw [hA, hB, mul_pow, mul_pow, Real.sq_sqrt hl0, Real.sq_sqrt hl1]
    simp only [Fin.sum_univ_two, hV, ha, hb, hc]
    ring
  rw [hform]
  have hval : ∀ t px py, px - cx = Real.sqrt l0 * Real.cos t * x - Real.sqrt l1 * Real.sin t * y → py - cy = Real.sqrt l0 * Real.cos t * y + Real.sqrt l1 * Real.sin t * x →
      w 0 * (px - cx) + w 1 * (py - cy) = A * Real.cos t + B * Real.sin t := by
    intro t px py e1 e2
    rw [e1, e2, hA, hB]; ring
  constructor
  · intro px py hd
    obtain ⟨t, e1, e2⟩ := (hD px py).1 hd
    rw [hval t px py e1 e2]
    refine Real.le_sqrt_of_sq_le ?_
    have h1 : (A * Real.cos t + B * Real.sin t) ^ 2 = A ^ 2 + B ^ 2 - (A * Real.sin t - B * Real.cos t) ^ 2 := by
      linear_combination (A ^ 2 + B ^ 2) * Real.sin_sq_add_cos_sq t
    rw [h1]
    linarith [sq_nonneg (A * Real.sin t - B * Real.cos t)]
  · obtain ⟨t, ht⟩ : ∃ t, A * Real.cos t + B * Real.sin t = Real.sqrt (A ^ 2 + B ^ 2) := by
      by_cases hz : A ^ 2 + B ^ 2 = 0
      · have hA0 : A = 0 := by nlinarith [sq_nonneg A, sq_nonneg B]
        have hB0 : B = 0 := by nlinarith [sq_nonneg A, sq_nonneg B]
        exact ⟨0, by rw [hA0, hB0]; simp⟩
      · have hp : 0 < A ^ 2 + B ^ 2 := lt_of_le_of_ne (by positivity) (Ne.symm hz)
        have hr := Real.sqrt_pos.2 hp
        have hr2 := Real.sq_sqrt hp.le
        generalize Real.sqrt (A ^ 2 + B ^ 2) = r at hr hr2
        have hn : (A / r) ^ 2 + (B / r) ^ 2 = 1 := by
          field_simp
          linarith
        obtain ⟨t, t1, t2⟩ : ∃ t, Real.cos t = A / r ∧ Real.sin t = B / r := ⟨_, angle_of _ _ hn⟩
        refine ⟨t, ?_⟩
        · rw [t1, t2]
          field_simp
          linarith
    refine ⟨cx + (Real.sqrt l0 * Real.cos t * x - Real.sqrt l1 * Real.sin t * y), cy + (Real.sqrt l0 * Real.cos t * y + Real.sqrt l1 * Real.sin t * x), (hD _ _).2 ⟨t, by ring, by ring⟩, ?_⟩
    rw [hval t _ _ (by ring) (by ring), ht]

/-- **C123**: nothing is plotted for a variance that's 0, and only then -/
theorem ellipse_none (L : Lib 2) (cx cy : ℝ) (V : Mat 2) : ellipseArg L cx cy V = none ↔ ∀ r c, V r c = 0 := by
  unfold ellipseArg
  constructor
  · intro h
    by_cases hz : V = 0
    · intro r c; rw [hz]; rfl
    · rw [if_neg hz] at h; cases h
  · intro h
    rw [if_pos]
    ext r c
    exact h r c

/-- **C123**: the variance of a set of points: in each direction it's the mean square of the distances from the mean -/
theorem points_variance (q : List (Fin 2 → ℝ)) (w : Fin 2 → ℝ) :
    (∀ k, (pointsVar q).1 k = (q.map fun p => p k).sum / q.length) ∧
    ∑ r, ∑ c, w r * (pointsVar q).2 r c * w c = (q.map fun p => (w 0 * (p 0 - (pointsVar q).1 0) + w 1 * (p 1 - (pointsVar q).1 1)) ^ 2).sum / q.length := by
  constructor
  · intro k
    show mean _ = _
    unfold mean
    rw [List.length_map]
  · have hV : ∀ r c, (pointsVar q).2 r c = (q.map fun p => (p r - (pointsVar q).1 r) * (p c - (pointsVar q).1 c)).sum / q.length := by
      intro r c
      show mean _ = _
      unfold mean
      rw [List.length_map]
      rfl
    simp only [Fin.sum_univ_two, hV]
    generalize (pointsVar q).1 = m
    have key : ∀ l : List (Fin 2 → ℝ), (l.map fun p => (w 0 * (p 0 - m 0) + w 1 * (p 1 - m 1)) ^ 2).sum =
        w 0 * (l.map fun p => (p 0 - m 0) * (p 0 - m 0)).sum * w 0 + w 0 * (l.map fun p => (p 0 - m 0) * (p 1 - m 1)).sum * w 1 +
        (w 1 * (l.map fun p => (p 1 - m 1) * (p 0 - m 0)).sum * w 0 + w 1 * (l.map fun p => (p 1 - m 1) * (p 1 - m 1)).sum * w 1) := by
      intro l
      induction l with
      | nil => simp
      | cons p l ih =>
        simp only [List.map_cons, List.sum_cons, ih]
        ring
    rw [key]
    ring

/-- **C123**: the ellipse of a set of points ends at one standard deviation of the points, in each direction -/
theorem points_ellipse (L : Lib 2) (hs : IsArgsort L.argsort) (q : List (Fin 2 → ℝ)) (h : GoodEig L (pointsVar q).2) (h0 : (pointsVar q).2 ≠ 0) :
    ∃ e, pointsEllipse L q = some e ∧ ∀ w : Fin 2 → ℝ, ∃ px py, Drawn e px py ∧
      w 0 * (px - (pointsVar q).1 0) + w 1 * (py - (pointsVar q).1 1) = Real.sqrt ((q.map fun p => (w 0 * (p 0 - (pointsVar q).1 0) + w 1 * (p 1 - (pointsVar q).1 1)) ^ 2).sum / q.length) := by
  have hV : (pointsVar q).2 1 0 = (pointsVar q).2 0 1 := by
    show mean _ = mean _
    congr 2
    funext p
    ring
  obtain ⟨e, he, hw⟩ := ellipse_extent L hs _ hV h (fun u => by
    rw [(points_variance q u).2]
    refine div_nonneg (List.sum_nonneg ?_) (Nat.cast_nonneg _)
    intro x hx
    obtain ⟨p, -, rfl⟩ := List.mem_map.1 hx
    positivity) h0 ((pointsVar q).1 0) ((pointsVar q).1 1)
  refine ⟨e, he, fun w => ?_⟩
  obtain ⟨px, py, h1, h2⟩ := (hw w).2
  exact ⟨px, py, h1, by rw [h2, (points_variance q w).2]⟩

/-! ### _Jt_x -/

/-- **Specification**: an element of the matrix that the arrays of a csr_matrix describe -/
noncomputable def dense (J : Mrcal.Propagate.Csr) (r : Nat) (c : Int) : ℝ :=
  ((List.range (J.Jp (r + 1) - J.Jp r).toNat).map fun (k : Nat) => if J.Ji (J.Jp r + k) = c then J.Jx (J.Jp r + k) else 0).sum

theorem inner_loop (J : Mrcal.Propagate.Csr) (r : Nat) (xr : ℝ) (c : Int) : ∀ (l : List Nat) (y : Int → ℝ),
    l.foldl (fun (y : Int → ℝ) (k : Nat) => fun icol => if icol = J.Ji (J.Jp r + k) then y icol + J.Jx (J.Jp r + k) * xr else y icol) y c =
      y c + (l.map fun (k : Nat) => if J.Ji (J.Jp r + k) = c then J.Jx (J.Jp r + k) else 0).sum * xr := by
  intro l
  induction l with
  | nil => intro y; simp
  | cons k l ih =>
    intro y
    rw [List.foldl_cons, ih, List.map_cons, List.sum_cons]
    by_cases hc : c = J.Ji (J.Jp r + k)
    · rw [if_pos hc, if_pos hc.symm]; ring
    · rw [if_neg hc, if_neg (Ne.symm hc)]; ring

/-- **C123**: _Jt_x() is the product of the transpose of the sparse matrix and the vector; the vector must have an element for each row -/
theorem jt_x (Np : Nat) (J : Mrcal.Propagate.Csr) (x : List ℝ) :
    (x.length + 1 ≠ Np → JtX Np J x = none) ∧
    (x.length + 1 = Np → ∃ y, JtX Np J x = some y ∧ ∀ c, y c = ((List.range x.length).map fun r => dense J r c * x.getD r 0).sum) := by
  unfold JtX
  constructor
  · intro h
    rw [if_pos (by omega)]
  · intro h
    rw [if_neg (by omega)]
    refine ⟨_, rfl, fun c => ?_⟩
    have key : ∀ (l : List Nat) (y : Int → ℝ), l.foldl (fun (y : Int → ℝ) irow =>
        (List.range (J.Jp (irow + 1) - J.Jp irow).toNat).foldl (fun (y : Int → ℝ) (k : Nat) =>
          let i := J.Jp irow + k
          fun icol => if icol = J.Ji i then y icol + J.Jx i * x.getD irow 0 else y icol) y) y c = y c + (l.map fun r => dense J r c * x.getD r 0).sum := by
      intro l
      induction l with
      | nil => intro y; simp
      | cons r l ih =>
        intro y
        rw [List.foldl_cons, ih, List.map_cons, List.sum_cons]
        have := inner_loop J r (x.getD r 0) c (List.range (J.Jp (r + 1) - J.Jp r).toNat) y
        dsimp only
        rw [this]
        unfold dense
        ring
    rw [key, zero_add]

/-! ### examples -/

/-- a sort, and an eigendecomposition that's given -/
noncomputable def exLib (n : Nat) (e : (Fin n → ℝ) × Mat n) : Lib n := ⟨fun _ => e, fun l => Tuple.sort l⟩

theorem ex_sort (n : Nat) (e : (Fin n → ℝ) × Mat n) : IsArgsort (exLib n e).argsort := fun l => ⟨(Tuple.sort l).bijective, fun _ _ h => Tuple.monotone_sort l h⟩

/-- the variance in the examples: standard deviations of 2 along (3/5,4/5) and 1 across -/
noncomputable def exVar : Mat 2 := !![52/25, 36/25; 36/25, 73/25]
noncomputable def exEig : (Fin 2 → ℝ) × Mat 2 := (![4, 1], !![3/5, -4/5; 4/5, 3/5])

theorem ex_good : GoodEig (exLib 2 exEig) exVar := by
  refine ⟨fun k => ?_, ?_⟩
  · show (∀ r, ∑ c, exVar r c * exEig.2 c k = exEig.1 k * exEig.2 r k) ∧ ∑ r, exEig.2 r k ^ 2 = 1
    fin_cases k <;> refine ⟨fun r => ?_, ?_⟩ <;> first | (fin_cases r <;> simp [exVar, exEig, Fin.sum_univ_two] <;> norm_num) | (simp [exEig, Fin.sum_univ_two]; norm_num)
  · show exEig.2.det ≠ 0
    rw [det2]
    simp [exEig]
    norm_num

/-- `ellipse_contour`: this variance is positive definite -/
example : ∃ e, ellipseArg (exLib 2 exEig) 10 20 exVar = some e ∧ Drawn e (10 + 6/5) (20 + 8/5) := by
  have h1 : exVar 0 0 = 52/25 := rfl
  have h2 : exVar 0 1 = 36/25 := rfl
  have h3 : exVar 1 1 = 73/25 := rfl
  obtain ⟨e, he, hD⟩ := ellipse_contour (exLib 2 exEig) (ex_sort 2 exEig) exVar rfl ex_good (by rw [h1]; norm_num) (by rw [h1, h2, h3]; norm_num) 10 20
  refine ⟨e, he, (hD _ _).2 ?_⟩
  rw [inverse_form exVar rfl (by rw [h1, h2, h3]; norm_num), h1, h2, h3]
  norm_num

/-- `ellipse_extent`: and so it's not negative, and not 0 -/
example : (∀ u : Fin 2 → ℝ, 0 ≤ ∑ r, ∑ c, u r * exVar r c * u c) ∧ exVar ≠ 0 := by
  refine ⟨fun u => ?_, fun h => ?_⟩
  · simp only [Fin.sum_univ_two, exVar, of_apply, cons_val', cons_val_zero, cons_val_one, cons_val_fin_one]
    nlinarith [sq_nonneg (3/5 * u 0 + 4/5 * u 1), sq_nonneg (3/5 * u 1 - 4/5 * u 0)]
  · have := congrFun (congrFun h 0) 0
    simp [exVar] at this

/-- `points_ellipse`: two points -/
example : pointsVar [![0, 0], ![2, 4]] = (![1, 2], !![1, 2; 2, 4]) := by
  unfold pointsVar mean
  ext1
  · funext k
    fin_cases k <;> norm_num
  · ext r c
    fin_cases r <;> fin_cases c <;> norm_num

/-- the eigenvalues of that variance: 0 and 5 -/
noncomputable def exEig2 : (Fin 2 → ℝ) × Mat 2 := (![0, 5], !![2 / Real.sqrt 5, 1 / Real.sqrt 5; -1 / Real.sqrt 5, 2 / Real.sqrt 5])

example : GoodEig (exLib 2 exEig2) !![1, 2; 2, 4] := by
  have h5 : Real.sqrt 5 ≠ 0 := by positivity
  have h5' : Real.sqrt 5 ^ 2 = 5 := Real.sq_sqrt (by norm_num)
  refine ⟨fun k => ?_, ?_⟩
  · show (∀ r, ∑ c, (!![1, 2; 2, 4] : Mat 2) r c * exEig2.2 c k = exEig2.1 k * exEig2.2 r k) ∧ ∑ r, exEig2.2 r k ^ 2 = 1
    fin_cases k <;> refine ⟨fun r => ?_, ?_⟩ <;> first | (fin_cases r <;> simp [exEig2, Fin.sum_univ_two] <;> field_simp <;> norm_num) | (simp [exEig2, Fin.sum_univ_two, div_pow]; norm_num)
  · show exEig2.2.det ≠ 0
    rw [det2]
    simp only [exEig2, of_apply, cons_val', cons_val_zero, cons_val_one, cons_val_fin_one]
    field_simp
    norm_num

/-- `extremes`, `worst_direction`: three directions with the variances 1, 9, 4 -/
example : GoodEig (exLib 3 (![1, 9, 4], 1)) (diagonal ![1, 9, 4]) ∧ (worst (exLib 3 (![1, 9, 4], 1)) (diagonal ![1, 9, 4])).1 = 3 := by
  have hg : GoodEig (exLib 3 (![1, 9, 4], 1)) (diagonal ![1, 9, 4]) := by
    refine ⟨fun k => ⟨fun r => ?_, ?_⟩, ?_⟩
    · show ∑ c, diagonal ![1, 9, 4] r c * (1 : Mat 3) c k = ![1, 9, 4] k * (1 : Mat 3) r k
      fin_cases k <;> fin_cases r <;> simp [Fin.sum_univ_succ, diagonal, one_apply]
    · show ∑ r, (1 : Mat 3) r k ^ 2 = 1
      fin_cases k <;> simp [Fin.sum_univ_succ, one_apply]
    · show (1 : Mat 3).det ≠ 0
      rw [det_one]; exact one_ne_zero
  refine ⟨hg, ?_⟩
  obtain ⟨-, -, h2⟩ := worst_direction _ (ex_sort 3 _) (diagonal ![1, 9, 4]) (by
    intro r c
    fin_cases r <;> fin_cases c <;> simp [diagonal]) (by
    intro u
    simp [Fin.sum_univ_succ, diagonal]
    nlinarith [sq_nonneg (u 0), sq_nonneg (u 1), sq_nonneg (u 2)]) hg
  have h3 := (h2 ![0, 1, 0] (by simp [Fin.sum_univ_succ])).1
  have h4 : Real.sqrt (∑ r, ∑ c, (![0, 1, 0] : Fin 3 → ℝ) r * diagonal ![1, 9, 4] r c * (![0, 1, 0] : Fin 3 → ℝ) c) = 3 := by
    rw [show (∑ r, ∑ c, (![0, 1, 0] : Fin 3 → ℝ) r * diagonal ![1, 9, 4] r c * (![0, 1, 0] : Fin 3 → ℝ) c) = 3 ^ 2 by simp [Fin.sum_univ_succ, diagonal]; norm_num]
    exact Real.sqrt_sq (by norm_num)
  rw [h4] at h3
  refine le_antisymm ?_ h3
  show Real.sqrt ((![1, 9, 4] : Fin 3 → ℝ) (Tuple.sort ![1, 9, 4] 2)) ≤ 3
  have : ∀ k, (![1, 9, 4] : Fin 3 → ℝ) k ≤ 3 ^ 2 := by
    intro k
    fin_cases k <;> norm_num
  exact (Real.sqrt_le_sqrt (this _)).trans (le_of_eq (Real.sqrt_sq (by norm_num)))

/-- `jt_x`: two rows: (2 in column 0, 3 in column 2), (5 in column 2) -/
example : ∃ y, JtX 3 ⟨fun k => if k = 0 then 0 else if k = 1 then 2 else 3, fun i => if i = 0 then 0 else 2, fun i => if i = 0 then 2 else if i = 1 then 3 else 5⟩ [10, 100] = some y ∧ y 2 = 530 := by
  obtain ⟨y, h, hy⟩ := (jt_x 3 ⟨fun k => if k = 0 then 0 else if k = 1 then 2 else 3, fun i => if i = 0 then 0 else 2, fun i => if i = 0 then 2 else if i = 1 then 3 else 5⟩ [10, 100]).2 rfl
  refine ⟨y, h, ?_⟩
  rw [hy]
  simp [dense, List.range_succ]
  norm_num

end Mrcal.SortedEig
