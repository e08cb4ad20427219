import Verif.Props.ProcrustesProps
import Verif.Props.ModelDiffProps
import Verif.Model.Seed
import Mathlib.LinearAlgebra.Matrix.DotProduct

/-! # Aligning two views of the same rigid set of points recovers the transformation between them -/

namespace Mrcal.Procrustes
open Matrix

/-- what `A` does to a vector, in terms of its singular value decomposition -/
theorem svd_norm {A U : Mat} {S : Vec} {Vt : Mat} (h : IsSvd A U S Vt) (v : Vec) :
    A.mulVec v ⬝ᵥ A.mulVec v = (S 0 * (Vt.mulVec v) 0) ^ 2 + (S 1 * (Vt.mulVec v) 1) ^ 2 + (S 2 * (Vt.mulVec v) 2) ^ 2 := by
  have e : A.mulVec v = U.mulVec ((diagonal S).mulVec (Vt.mulVec v)) := by rw [mulVec_mulVec, mulVec_mulVec, ← h.eq]
  rw [e, norm_rot h.u]
  simp only [dotProduct, Fin.sum_univ_three, mulVec_diagonal]
  ring

/-- a matrix that doesn't shrink a plane: the second singular value -/
theorem svd_second {A U : Mat} {S : Vec} {Vt : Mat} (h : IsSvd A U S Vt) (x y : Vec) (c : ℝ) (hx : x ⬝ᵥ x = 1) (hy : y ⬝ᵥ y = 1) (hxy : x ⬝ᵥ y = 0)
    (hA : ∀ a b : ℝ, c ^ 2 * (a ^ 2 + b ^ 2) ≤ A.mulVec (a • x + b • y) ⬝ᵥ A.mulVec (a • x + b • y)) : c ≤ S 1 := by
  have hs1 : 0 ≤ S 1 := h.s2.trans h.s12
  -- a direction in the plane that's orthogonal to the first singular vector
  obtain ⟨a, b, hab, h0⟩ : ∃ a b : ℝ, 0 < a ^ 2 + b ^ 2 ∧ (Vt.mulVec (a • x + b • y)) 0 = 0 := by
    have e : ∀ a b : ℝ, (Vt.mulVec (a • x + b • y)) 0 = a * (Vt.mulVec x) 0 + b * (Vt.mulVec y) 0 := by
      intro a b; rw [mulVec_add, mulVec_smul, mulVec_smul]; simp
    by_cases hz : (Vt.mulVec x) 0 = 0 ∧ (Vt.mulVec y) 0 = 0
    · exact ⟨1, 0, by norm_num, by rw [e, hz.1, hz.2]; ring⟩
    · refine ⟨(Vt.mulVec y) 0, -(Vt.mulVec x) 0, ?_, by rw [e]; ring⟩
      rcases not_and_or.mp hz with hz | hz
      · have := sq_pos_of_ne_zero hz; nlinarith [sq_nonneg ((Vt.mulVec y) 0)]
      · have := sq_pos_of_ne_zero hz; nlinarith [sq_nonneg ((Vt.mulVec x) 0)]
  have hv : (Vtᵀᵀ).mulVec (a • x + b • y) ⬝ᵥ Vt.mulVec (a • x + b • y) = a ^ 2 + b ^ 2 := by
    rw [transpose_transpose, norm_rot (mul_eq_one_comm.mp h.v)]
    simp only [dotProduct, Fin.sum_univ_three, Pi.add_apply, Pi.smul_apply, smul_eq_mul] at hx hy hxy ⊢
    linear_combination a ^ 2 * hx + b ^ 2 * hy + 2 * a * b * hxy
  have hn := hA a b
  rw [svd_norm h, h0] at hn
  rw [transpose_transpose] at hv
  simp only [dotProduct, Fin.sum_univ_three, h0] at hv
  generalize (Vt.mulVec (a • x + b • y)) 1 = z1 at *
  generalize (Vt.mulVec (a • x + b • y)) 2 = z2 at *
  have h2 : (S 2 * z2) ^ 2 ≤ (S 1 * z2) ^ 2 := by
    rw [mul_pow, mul_pow]
    exact mul_le_mul_of_nonneg_right (pow_le_pow_left₀ h.s2 h.s12 2) (sq_nonneg _)
  have hk : c ^ 2 * (a ^ 2 + b ^ 2) ≤ S 1 ^ 2 * (a ^ 2 + b ^ 2) := by
    have : S 1 ^ 2 * (a ^ 2 + b ^ 2) = (S 1 * z1) ^ 2 + (S 1 * z2) ^ 2 := by rw [← hv]; ring
    rw [this]; nlinarith
  exact le_of_sq_le_sq hs1 (le_of_mul_le_mul_right hk hab)
where
  le_of_sq_le_sq {c s : ℝ} (hs : 0 ≤ s) (h : c ^ 2 ≤ s ^ 2) : c ≤ s := by nlinarith

/-- the scatter of a set of points that contains a right angle with legs of length s, in the plane of these legs -/
theorem scatter_plane (N : Nat) (d : Nat → Vec) (x y : Vec) (s : ℝ) (i0 i1 i2 : Nat) (h0 : i0 < N) (h1 : i1 < N) (h2 : i2 < N) (h01 : i0 ≠ i1) (h02 : i0 ≠ i2) (hx : x ⬝ᵥ x = 1) (hy : y ⬝ᵥ y = 1)
    (hxy : x ⬝ᵥ y = 0) (e1 : d i1 - d i0 = s • x) (e2 : d i2 - d i0 = s • y) (a b : ℝ) :
    s ^ 2 / 4 * (a ^ 2 + b ^ 2) ≤ ∑ i ∈ Finset.range N, (d i ⬝ᵥ (a • x + b • y)) ^ 2 := by
  obtain ⟨v, hv⟩ : ∃ v, v = a • x + b • y := ⟨_, rfl⟩
  have k1 : d i1 ⬝ᵥ v - d i0 ⬝ᵥ v = s * a := by
    rw [← sub_dotProduct, e1, hv, smul_dotProduct, dotProduct_add, dotProduct_smul, dotProduct_smul, hx, hxy]; simp
  have k2 : d i2 ⬝ᵥ v - d i0 ⬝ᵥ v = s * b := by
    rw [← sub_dotProduct, e2, hv, smul_dotProduct, dotProduct_add, dotProduct_smul, dotProduct_smul, hy, dotProduct_comm y x, hxy]; simp
  have pair : ∀ j, j < N → i0 ≠ j → (d i0 ⬝ᵥ v) ^ 2 + (d j ⬝ᵥ v) ^ 2 ≤ ∑ i ∈ Finset.range N, (d i ⬝ᵥ v) ^ 2 := by
    intro j hj hne
    rw [← Finset.sum_pair (f := fun i => (d i ⬝ᵥ v) ^ 2) hne]
    refine Finset.sum_le_sum_of_subset_of_nonneg ?_ fun i _ _ => sq_nonneg _
    intro i hi
    simp only [Finset.mem_insert, Finset.mem_singleton] at hi
    rcases hi with rfl | rfl <;> simpa
  have p1 := pair i1 h1 h01
  have p2 := pair i2 h2 h02
  rw [← hv]
  have q1 : (s * a) ^ 2 ≤ 2 * ((d i0 ⬝ᵥ v) ^ 2 + (d i1 ⬝ᵥ v) ^ 2) := by rw [← k1]; nlinarith [sq_nonneg (d i1 ⬝ᵥ v + d i0 ⬝ᵥ v)]
  have q2 : (s * b) ^ 2 ≤ 2 * ((d i0 ⬝ᵥ v) ^ 2 + (d i2 ⬝ᵥ v) ^ 2) := by rw [← k2]; nlinarith [sq_nonneg (d i2 ⬝ᵥ v + d i0 ⬝ᵥ v)]
  nlinarith

/-- Cauchy-Schwarz -/
theorem cauchy (u v : Vec) : (u ⬝ᵥ v) ^ 2 ≤ (u ⬝ᵥ u) * (v ⬝ᵥ v) := by
  simp only [dotProduct, Fin.sum_univ_three]
  nlinarith [sq_nonneg (u 0 * v 1 - u 1 * v 0), sq_nonneg (u 0 * v 2 - u 2 * v 0), sq_nonneg (u 1 * v 2 - u 2 * v 1)]

theorem mean_move (N : Nat) (hN : 0 < N) (p0 p1 : Nat → Vec) (R : Mat) (t : Vec) (hp : ∀ i < N, p0 i = R.mulVec (p1 i) + t) : mean N p0 = R.mulVec (mean N p1) + t := by
  have hN' : (N : ℝ) ≠ 0 := by exact_mod_cast hN.ne'
  have e : ∀ p : Nat → Vec, mean N p = (1 / (N : ℝ)) • ∑ i ∈ Finset.range N, p i := by
    intro p; ext j; simp [mean, Finset.sum_apply, div_eq_inv_mul]
  rw [e, e, Finset.sum_congr rfl fun i hi => hp i (Finset.mem_range.mp hi), Finset.sum_add_distrib, Finset.sum_const, Finset.card_range, mulVec_smul, mulVec_sum, smul_add]
  congr 1
  rw [← Nat.cast_smul_eq_nsmul ℝ, smul_smul, one_div, inv_mul_cancel₀ hN', one_smul]

/-- rotations that agree on two orthogonal directions -/
theorem rotation_agree {R Q : Mat} (hR : IsRotation R) (hQ : IsRotation Q) (x y : Vec) (hx : x ⬝ᵥ x = 1) (hy : y ⬝ᵥ y = 1) (hxy : x ⬝ᵥ y = 0) (ex : R.mulVec x = Q.mulVec x)
    (ey : R.mulVec y = Q.mulVec y) : R = Q := by
  have conv : ∀ M : Mat, ∃ m : M3, Pose.toMat m = M := by
    intro M
    refine ⟨⟨M 0 0, M 0 1, M 0 2, M 1 0, M 1 1, M 1 2, M 2 0, M 2 1, M 2 2⟩, ?_⟩
    ext i j; fin_cases i <;> fin_cases j <;> rfl
  have convv : ∀ v : Vec, ∃ p : P3, Pose.toVec p = v := by
    intro v
    refine ⟨⟨v 0, v 1, v 2⟩, ?_⟩
    ext i; fin_cases i <;> rfl
  obtain ⟨r, rfl⟩ := conv R
  obtain ⟨q, rfl⟩ := conv Q
  obtain ⟨px, rfl⟩ := convv x
  obtain ⟨py, rfl⟩ := convv y
  have isrot : ∀ m : M3, IsRotation (Pose.toMat m) → Pose.IsRot m := fun m h => ⟨mul_eq_one_comm.mp h.1, h.2⟩
  rw [ModelDiff.rot_unique r q (isrot r hR) (isrot q hQ) px py ?_ ?_ ?_]
  · intro h
    simp only [Pose.toVec, dotProduct, Fin.sum_univ_three] at hx hy hxy
    simp at hx hy hxy
    simp only [ModelDiff.crossP, P3.mk.injEq] at h
    obtain ⟨c0, c1, c2⟩ := h
    have lag : (px.x * px.x + px.y * px.y + px.z * px.z) * (py.x * py.x + py.y * py.y + py.z * py.z) = (px.x * py.x + px.y * py.y + px.z * py.z) ^ 2 +
        ((px.y * py.z - px.z * py.y) ^ 2 + (px.z * py.x - px.x * py.z) ^ 2 + (px.x * py.y - px.y * py.x) ^ 2) := by ring
    rw [hx, hy, hxy, c0, c1, c2] at lag
    norm_num at lag
  · apply Pose.toVec_inj
    rw [show Pose.rotatePointR r px false = Pose.mulVec r px from rfl, show Pose.rotatePointR q px false = Pose.mulVec q px from rfl, Pose.toVec_mulVec, Pose.toVec_mulVec, ex]
  · apply Pose.toVec_inj
    rw [show Pose.rotatePointR r py false = Pose.mulVec r py from rfl, show Pose.rotatePointR q py false = Pose.mulVec q py from rfl, Pose.toVec_mulVec, Pose.toVec_mulVec, ey]

/-- exact data: the C implementation -/
theorem align_exact (lapack : Lapack) (hl : LapackOk lapack) (N : Nat) (p0 p1 : Nat → Vec) (R : Mat) (t : Vec) (hR : IsRotation R) (hp : ∀ i < N, p0 i = R.mulVec (p1 i) + t)
    (x y : Vec) (s : ℝ) (i0 i1 i2 : Nat) (h0 : i0 < N) (h1 : i1 < N) (h2 : i2 < N) (h01 : i0 ≠ i1) (h02 : i0 ≠ i2) (hx : x ⬝ᵥ x = 1) (hy : y ⬝ᵥ y = 1) (hxy : x ⬝ᵥ y = 0)
    (e1 : p1 i1 - p1 i0 = s • x) (e2 : p1 i2 - p1 i0 = s • y) (hs : 4e-12 ≤ s ^ 2) :
    alignPointsRt01 lapack N p0 p1 none = .fatal ∨ alignPointsRt01 lapack N p0 p1 none = .ok (R, t) := by
  have hN : 0 < N := by omega
  have hs0 : s ≠ 0 := by intro h; rw [h] at hs; norm_num at hs
  have hm := mean_move N hN p0 p1 R t hp
  rcases vectors_cases lapack hl N p0 p1 (mean N p0) (mean N p1) none with hf | ⟨U, S, Vt, hsvd, hc⟩
  · left; unfold alignPointsRt01; simp only [hf]
  · have hS : (1e-12 : ℝ) ≤ S 1 := by
      refine le_trans ?_ (svd_second hsvd x y (s ^ 2 / 4) hx hy hxy fun a b => ?_)
      · norm_num at hs ⊢; linarith
      · obtain ⟨v, hv⟩ : ∃ v, v = a • x + b • y := ⟨_, rfl⟩
        rw [← hv]
        obtain ⟨d, hd⟩ : ∃ d : Nat → Vec, d = fun i => p1 i - mean N p1 := ⟨_, rfl⟩
        have hM : (outerSum N p0 p1 (mean N p0) (mean N p1) none).mulVec v = R.mulVec (∑ i ∈ Finset.range N, (d i ⬝ᵥ v) • d i) := by
          rw [mulVec_sum]
          ext j
          rw [Finset.sum_apply]
          simp only [mulVec, dotProduct, Fin.sum_univ_three, outerSum, Finset.sum_mul, ← Finset.sum_add_distrib]
          refine Finset.sum_congr rfl fun i hi => ?_
          have : p0 i j - mean N p0 j = R j 0 * d i 0 + R j 1 * d i 1 + R j 2 * d i 2 := by
            rw [hp i (Finset.mem_range.mp hi), hm, hd]
            simp only [Pi.add_apply, mulVec, dotProduct, Fin.sum_univ_three, Pi.sub_apply]; ring
          rw [this, hd]
          simp only [Pi.smul_apply, smul_eq_mul, Pi.sub_apply]
          ring
        have hq : v ⬝ᵥ (∑ i ∈ Finset.range N, (d i ⬝ᵥ v) • d i) = ∑ i ∈ Finset.range N, (d i ⬝ᵥ v) ^ 2 := by
          rw [dotProduct_sum]
          refine Finset.sum_congr rfl fun i _ => ?_
          rw [dotProduct_smul, dotProduct_comm v, smul_eq_mul]; ring
        rw [hM, norm_rot hR.1]
        generalize (∑ i ∈ Finset.range N, (d i ⬝ᵥ v) • d i) = g at hq ⊢
        have hpl := scatter_plane N d x y s i0 i1 i2 h0 h1 h2 h01 h02 hx hy hxy (by rw [hd]; simp only; rw [← e1]; abel) (by rw [hd]; simp only; rw [← e2]; abel) a b
        rw [← hv, ← hq] at hpl
        have hvv : v ⬝ᵥ v = a ^ 2 + b ^ 2 := by
          rw [hv]
          simp only [dotProduct, Fin.sum_univ_three, Pi.add_apply, Pi.smul_apply, smul_eq_mul] at hx hy hxy ⊢
          linear_combination a ^ 2 * hx + b ^ 2 * hy + 2 * a * b * hxy
        have hcs := cauchy v g
        rw [hvv] at hcs
        by_cases hab : a ^ 2 + b ^ 2 = 0
        · rw [hab, mul_zero]; exact dot_self_nonneg g
        · have hab' : 0 < a ^ 2 + b ^ 2 := lt_of_le_of_ne (by positivity) (Ne.symm hab)
          have hl0 : 0 ≤ s ^ 2 / 4 * (a ^ 2 + b ^ 2) := by positivity
          have := pow_le_pow_left₀ hl0 hpl 2
          have h3 : (a ^ 2 + b ^ 2) * ((s ^ 2 / 4) ^ 2 * (a ^ 2 + b ^ 2)) ≤ (a ^ 2 + b ^ 2) * (g ⬝ᵥ g) := by nlinarith
          exact le_of_mul_le_mul_left h3 hab'
    rcases hc with ⟨hlt, -⟩ | ⟨-, hok⟩
    · linarith
    · right
      have hr : ∃ R' t', alignPointsRt01 lapack N p0 p1 none = .ok (R', t') := by
        unfold alignPointsRt01; simp only [hok]; exact ⟨_, _, rfl⟩
      obtain ⟨R', t', hr⟩ := hr
      obtain ⟨hR', hopt⟩ := points_optimal_partial lapack hl N hN p0 p1 R' t' hr
      have hz : documentedCost N p0 p1 (fun _ => 1) R t = 0 := by
        unfold documentedCost
        refine Finset.sum_eq_zero fun i hi => ?_
        rw [hp i (Finset.mem_range.mp hi)]; simp
      have hle := hopt R t hR
      rw [hz] at hle
      have hterm : ∀ i < N, p0 i = R'.mulVec (p1 i) + t' := by
        intro i hi
        have hnn : ∀ i ∈ Finset.range N, 0 ≤ ((1 : ℝ) • (p0 i - (R'.mulVec (p1 i) + t')) ⬝ᵥ ((1 : ℝ) • (p0 i - (R'.mulVec (p1 i) + t')))) := fun i _ => dot_self_nonneg _
        have hz' := (Finset.sum_eq_zero_iff_of_nonneg hnn).mp (le_antisymm hle (Finset.sum_nonneg hnn)) i (Finset.mem_range.mpr hi)
        rw [one_smul] at hz'
        have := dotProduct_self_eq_zero.mp hz'
        exact sub_eq_zero.mp this
      have ag : ∀ j, j < N → ∀ u : Vec, p1 j - p1 i0 = s • u → R'.mulVec u = R.mulVec u := by
        intro j hj u hu
        have k1 := hterm j hj; have k2 := hterm i0 h0
        rw [hp j hj] at k1; rw [hp i0 h0] at k2
        have : R'.mulVec (s • u) = R.mulVec (s • u) := by
          rw [← hu, mulVec_sub, mulVec_sub]
          have l1 : R'.mulVec (p1 j) = R.mulVec (p1 j) + t - t' := by rw [k1]; abel
          have l2 : R'.mulVec (p1 i0) = R.mulVec (p1 i0) + t - t' := by rw [k2]; abel
          rw [l1, l2]; abel
        rw [mulVec_smul, mulVec_smul] at this
        exact smul_right_injective _ hs0 this
      have hRR : R' = R := rotation_agree hR' hR x y hx hy hxy (ag i1 h1 x e1) (ag i2 h2 y e2)
      have htt : t' = t := by
        have := hterm i0 h0
        rw [hp i0 h0, hRR] at this
        exact (add_left_cancel this).symm
      rw [hr, hRR, htt]

/-- exact data: through the Python API -/
theorem align_api_exact (lapack : Lapack) (svd : NumpySvd) (hl : LapackOk lapack) (hn : NumpyOk svd) (contiguous : Bool) (N : Nat) (p0 p1 : Nat → Vec) (R : Mat) (t : Vec) (hR : IsRotation R)
    (hp : ∀ i < N, p0 i = R.mulVec (p1 i) + t) (x y : Vec) (s : ℝ) (i0 i1 i2 : Nat) (h0 : i0 < N) (h1 : i1 < N) (h2 : i2 < N) (h01 : i0 ≠ i1) (h02 : i0 ≠ i2) (hx : x ⬝ᵥ x = 1) (hy : y ⬝ᵥ y = 1)
    (hxy : x ⬝ᵥ y = 0) (e1 : p1 i1 - p1 i0 = s • x) (e2 : p1 i2 - p1 i0 = s • y) (hs : 4e-12 ≤ s ^ 2) :
    alignPointsApi lapack svd contiguous N p0 p1 none = .exception ∨ alignPointsApi lapack svd contiguous N p0 p1 none = .array (R, t) := by
  have main : ∀ l, LapackOk l → alignPointsApi l svd true N p0 p1 none = .exception ∨ alignPointsApi l svd true N p0 p1 none = .array (R, t) := by
    intro l hl
    unfold alignPointsApi
    simp only [Bool.not_true, Bool.false_eq_true, if_false]
    rcases align_exact l hl N p0 p1 R t hR hp x y s i0 i1 i2 h0 h1 h2 h01 h02 hx hy hxy e1 e2 hs with h | h
    · left; rw [h]; rfl
    · right; rw [h]; rfl
  cases contiguous with
  | true => exact main lapack hl
  | false =>
    let l : Lapack := fun A => (svd A).map fun r => (r.2.2, r.2.1, r.1)
    have hl' : LapackOk l := by
      intro a u s vt hs
      simp only [l] at hs
      cases hr : svd a with
      | none => rw [hr] at hs; cases hs
      | some r =>
        rw [hr] at hs
        obtain ⟨V, S, Ut⟩ := r
        simp only [Option.map_some, Option.some.injEq, Prod.mk.injEq] at hs
        obtain ⟨rfl, rfl, rfl⟩ := hs
        obtain ⟨e, hu, hv, s1, s2, s3⟩ := hn _ _ _ _ hr
        refine ⟨?_, ?_, ?_, s1, s2, s3⟩
        · rw [e]; simp only [transpose_mul, diagonal_transpose, mul_assoc]
        · rw [transpose_transpose]; exact hv
        · rw [transpose_transpose]; exact hu
    have := main l hl'
    rw [points_contiguous l svd (fun A => rfl)] at this
    exact this

end Mrcal.Procrustes
