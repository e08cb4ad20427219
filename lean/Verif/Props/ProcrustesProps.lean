import Verif.Model.Procrustes
import Mathlib.LinearAlgebra.Matrix.Trace
import Mathlib.LinearAlgebra.Matrix.Determinant.Basic
import Mathlib.Tactic.Linarith
import Mathlib.Tactic.Ring
import Mathlib.Tactic.LinearCombination
import Mathlib.Tactic.FinCases
import Mathlib.Tactic.FieldSimp
import Mathlib.Tactic.IntervalCases

/-! # C75: aligning points and vectors is optimal -/

namespace Mrcal.Procrustes
open Matrix

/-! ### specification -/

/-- a rotation: orthogonal, no mirror -/
def IsRotation (R : Mat) : Prop := Rᵀ * R = 1 ∧ R.det = 1

/-- a singular value decomposition of A -/
structure IsSvd (A U : Mat) (S : Vec) (Vt : Mat) : Prop where
  eq : A = U * diagonal S * Vt
  u : Uᵀ * U = 1
  v : Vt * Vtᵀ = 1
  s01 : S 1 ≤ S 0
  s12 : S 2 ≤ S 1
  s2 : 0 ≤ S 2

/-- LAPACK's contract. It sees the transposes of the row-first matrices in the buffers -/
def LapackOk (lapack : Lapack) : Prop := ∀ a u s vt, lapack a = some (u, s, vt) → IsSvd aᵀ uᵀ s vtᵀ

/-- numpy's contract -/
def NumpyOk (svd : NumpySvd) : Prop := ∀ a u s vt, svd a = some (u, s, vt) → IsSvd a u s vt

/-- the documented cost of aligning vectors, with equal weights if none are given: cost = -sum( w[i] inner(a[i], rotate(b[i])) ) -/
def vectorCost (N : Nat) (a b : Nat → Vec) (w : Option (Nat → ℝ)) (R : Mat) : ℝ :=
  -∑ i ∈ Finset.range N, (w.getD fun _ => 1) i * (a i ⬝ᵥ R.mulVec (b i))

/-- sum( w[i] norm2(a[i] - transform(b[i])) ) -/
def pointCost (N : Nat) (a b : Nat → Vec) (w : Nat → ℝ) (R : Mat) (t : Vec) : ℝ :=
  ∑ i ∈ Finset.range N, w i * ((a i - (R.mulVec (b i) + t)) ⬝ᵥ (a i - (R.mulVec (b i) + t)))

/-- the documented cost of aligning points: cost = sum( norm2( w[i] (a[i] - transform(b[i])) )) -/
def documentedCost (N : Nat) (a b : Nat → Vec) (w : Nat → ℝ) (R : Mat) (t : Vec) : ℝ :=
  ∑ i ∈ Finset.range N, ((w i • (a i - (R.mulVec (b i) + t))) ⬝ᵥ (w i • (a i - (R.mulVec (b i) + t))))

/-! ### orthogonal 3x3 matrices -/

theorem detR_eq (R : Mat) : detR R = R.det := by rw [det_fin_three, detR]; ring

theorem ortho_comm {Q : Mat} (h : Qᵀ * Q = 1) : Q * Qᵀ = 1 := mul_eq_one_comm.mp h

theorem ortho_diag_le {Q : Mat} (h : Qᵀ * Q = 1) (i : Fin 3) : Q i i ≤ 1 := by
  have e := congrFun (congrFun h i) i
  rw [mul_apply, Fin.sum_univ_three, one_apply_eq] at e
  simp only [transpose_apply] at e
  have hs : ∀ a b c : ℝ, a * a + b * b + c * c = 1 → a ≤ 1 ∧ b ≤ 1 ∧ c ≤ 1 := by
    intro a b c h
    exact ⟨by nlinarith [mul_self_nonneg b, mul_self_nonneg c], by nlinarith [mul_self_nonneg a, mul_self_nonneg c], by nlinarith [mul_self_nonneg a, mul_self_nonneg b]⟩
  obtain ⟨h0, h1, h2⟩ := hs _ _ _ e
  fin_cases i
  · exact h0
  · exact h1
  · exact h2

theorem ortho_det {Q : Mat} (h : Qᵀ * Q = 1) : Q.det = 1 ∨ Q.det = -1 := by
  have e := congrArg det h
  rw [det_mul, det_transpose, det_one] at e
  have : (Q.det - 1) * (Q.det + 1) = 0 := by linear_combination e
  rcases mul_eq_zero.mp this with h | h
  · left; linarith
  · right; linarith

/-- the cofactors of a rotation are its elements -/
theorem rot_cofactors {Q : Mat} (h : IsRotation Q) : Q 0 0 = Q 1 1 * Q 2 2 - Q 1 2 * Q 2 1 ∧ Q 1 1 = Q 0 0 * Q 2 2 - Q 0 2 * Q 2 0 ∧ Q 2 2 = Q 0 0 * Q 1 1 - Q 0 1 * Q 1 0 := by
  obtain ⟨h, hd⟩ := h
  have hadj : Q.adjugate = Qᵀ := by
    have e1 : Q.adjugate * Q = 1 := by rw [adjugate_mul, hd, one_smul]
    calc Q.adjugate = Q.adjugate * (Q * Qᵀ) := by rw [ortho_comm h, mul_one]
      _ = Qᵀ := by rw [← mul_assoc, e1, one_mul]
  rw [adjugate_fin_three] at hadj
  have a0 := congrFun (congrFun hadj 0) 0
  have a1 := congrFun (congrFun hadj 1) 1
  have a2 := congrFun (congrFun hadj 2) 2
  simp [transpose_apply] at a0 a1 a2
  exact ⟨by linarith, by linarith, by linarith⟩

theorem rot_trace_ge {Q : Mat} (h : IsRotation Q) : -1 ≤ Q 0 0 + Q 1 1 + Q 2 2 := by
  obtain ⟨c0, c1, c2⟩ := rot_cofactors h
  have e0 := congrFun (congrFun h.1 0) 0
  have e1 := congrFun (congrFun h.1 1) 1
  have e2 := congrFun (congrFun h.1 2) 2
  rw [mul_apply, Fin.sum_univ_three, one_apply_eq] at e0 e1 e2
  simp only [transpose_apply] at e0 e1 e2
  have l0 := ortho_diag_le h.1 0
  have l1 := ortho_diag_le h.1 1
  have l2 := ortho_diag_le h.1 2
  have key : (3 - (Q 0 0 + Q 1 1 + Q 2 2)) * (1 + (Q 0 0 + Q 1 1 + Q 2 2)) = (Q 0 1 - Q 1 0) ^ 2 + (Q 0 2 - Q 2 0) ^ 2 + (Q 1 2 - Q 2 1) ^ 2 := by
    linear_combination (-1) * e0 - e1 - e2 + 2 * c0 + 2 * c1 + 2 * c2
  by_contra hlt
  have h3 : 0 < 3 - (Q 0 0 + Q 1 1 + Q 2 2) := by linarith
  have : (3 - (Q 0 0 + Q 1 1 + Q 2 2)) * (1 + (Q 0 0 + Q 1 1 + Q 2 2)) < 0 := mul_neg_of_pos_of_neg h3 (by linarith)
  nlinarith [sq_nonneg (Q 0 1 - Q 1 0), sq_nonneg (Q 0 2 - Q 2 0), sq_nonneg (Q 1 2 - Q 2 1)]

theorem mirror_trace_le {Q : Mat} (h : Qᵀ * Q = 1) (hd : Q.det = -1) : Q 0 0 + Q 1 1 + Q 2 2 ≤ 1 := by
  have : IsRotation (-Q) := by
    refine ⟨?_, ?_⟩
    · rw [transpose_neg, neg_mul_neg, h]
    · rw [det_neg, hd]; norm_num
  have : -1 ≤ -Q 0 0 + -Q 1 1 + -Q 2 2 := rot_trace_ge this
  linarith

/-! ### the optimization -/

/-- sum of the products of the elements -/
def dotM (M R : Mat) : ℝ := ∑ j, ∑ k, M j k * R j k

theorem dotM_trace (M R : Mat) : dotM M R = (Mᵀ * R).trace := by
  simp only [dotM, trace, diag_apply, mul_apply, transpose_apply, Fin.sum_univ_three]; ring

/-- the rotation, in the frame of the singular vectors -/
def frameQ (U Vt R : Mat) : Mat := Uᵀ * R * Vtᵀ

theorem dotM_frame {A U : Mat} {S : Vec} {Vt : Mat} (h : IsSvd A U S Vt) (R : Mat) :
    dotM A R = S 0 * frameQ U Vt R 0 0 + S 1 * frameQ U Vt R 1 1 + S 2 * frameQ U Vt R 2 2 := by
  rw [dotM_trace, h.eq, transpose_mul, transpose_mul, diagonal_transpose, mul_assoc, trace_mul_comm, mul_assoc, mul_assoc, ← mul_assoc Uᵀ R]
  simp only [trace, diag_apply, Fin.sum_univ_three, diagonal_mul, frameQ]

theorem frame_ortho {A U : Mat} {S : Vec} {Vt : Mat} (h : IsSvd A U S Vt) {R : Mat} (hR : IsRotation R) : (frameQ U Vt R)ᵀ * frameQ U Vt R = 1 := by
  unfold frameQ
  have hu : U * Uᵀ = 1 := ortho_comm h.u
  simp only [transpose_mul, transpose_transpose]
  calc Vt * (Rᵀ * U) * (Uᵀ * R * Vtᵀ) = Vt * Rᵀ * (U * Uᵀ) * R * Vtᵀ := by simp only [mul_assoc]
    _ = 1 := by rw [hu, mul_one, mul_assoc Vt, hR.1, mul_one, h.v]

theorem frame_det {A U : Mat} {S : Vec} {Vt : Mat} (_ : IsSvd A U S Vt) {R : Mat} (hR : IsRotation R) : (frameQ U Vt R).det = (U * Vt).det := by
  unfold frameQ
  rw [det_mul, det_mul, det_mul, det_transpose, det_transpose, hR.2, mul_one]

theorem frame_back {A U : Mat} {S : Vec} {Vt : Mat} (h : IsSvd A U S Vt) (R : Mat) : R = U * frameQ U Vt R * Vt := by
  unfold frameQ
  have hu : U * Uᵀ = 1 := ortho_comm h.u
  have hv : Vtᵀ * Vt = 1 := mul_eq_one_comm.mp h.v
  calc R = (U * Uᵀ) * R * (Vtᵀ * Vt) := by rw [hu, hv, one_mul, mul_one]
    _ = U * (Uᵀ * R * Vtᵀ) * Vt := by simp only [mul_assoc]

theorem frame_of {A U : Mat} {S : Vec} {Vt : Mat} (h : IsSvd A U S Vt) (D : Mat) : frameQ U Vt (U * D * Vt) = D := by
  unfold frameQ
  calc Uᵀ * (U * D * Vt) * Vtᵀ = (Uᵀ * U) * D * (Vt * Vtᵀ) := by simp only [mul_assoc]
    _ = D := by rw [h.u, h.v, one_mul, mul_one]

/-- negates the third -/
def mirrorD : Mat := diagonal ![1, 1, -1]

/-- what both implementations compute from the decomposition -/
noncomputable def kabsch (U Vt : Mat) : Mat := if (U * Vt).det < 0 then U * mirrorD * Vt else U * Vt

theorem uv_ortho {A U : Mat} {S : Vec} {Vt : Mat} (h : IsSvd A U S Vt) (D : Mat) (hD : Dᵀ * D = 1) : (U * D * Vt)ᵀ * (U * D * Vt) = 1 := by
  have hv : Vtᵀ * Vt = 1 := mul_eq_one_comm.mp h.v
  simp only [transpose_mul]
  calc Vtᵀ * (Dᵀ * Uᵀ) * (U * D * Vt) = Vtᵀ * Dᵀ * (Uᵀ * U) * D * Vt := by simp only [mul_assoc]
    _ = 1 := by rw [h.u, mul_one, mul_assoc Vtᵀ, hD, mul_one, hv]

theorem mirrorD_ortho : mirrorDᵀ * mirrorD = 1 := by
  unfold mirrorD
  rw [diagonal_transpose, diagonal_mul_diagonal]
  ext i j
  fin_cases i <;> fin_cases j <;> simp

theorem uv_det {A U : Mat} {S : Vec} {Vt : Mat} (h : IsSvd A U S Vt) : (U * Vt).det = 1 ∨ (U * Vt).det = -1 := by
  have := uv_ortho h 1 (by rw [transpose_one, one_mul])
  rw [mul_one] at this
  exact ortho_det this

theorem kabsch_rotation {A U : Mat} {S : Vec} {Vt : Mat} (h : IsSvd A U S Vt) : IsRotation (kabsch U Vt) := by
  unfold kabsch
  rcases uv_det h with hd | hd
  · rw [if_neg (by rw [hd]; norm_num)]
    have := uv_ortho h 1 (by rw [transpose_one, one_mul])
    rw [mul_one] at this
    exact ⟨this, hd⟩
  · rw [if_pos (by rw [hd]; norm_num)]
    refine ⟨uv_ortho h _ mirrorD_ortho, ?_⟩
    rw [det_mul] at hd
    rw [det_mul, det_mul, mirrorD, det_diagonal, Fin.prod_univ_three]
    simp
    linarith

theorem kabsch_value {A U : Mat} {S : Vec} {Vt : Mat} (h : IsSvd A U S Vt) : dotM A (kabsch U Vt) = S 0 + S 1 + (U * Vt).det * S 2 := by
  unfold kabsch
  rcases uv_det h with hd | hd
  · rw [if_neg (by rw [hd]; norm_num), dotM_frame h]
    have := frame_of h 1
    rw [mul_one] at this
    rw [this, hd]; simp
  · rw [if_pos (by rw [hd]; norm_num), dotM_frame h, frame_of h, hd]
    simp [mirrorD]

theorem kabsch_optimal {A U : Mat} {S : Vec} {Vt : Mat} (h : IsSvd A U S Vt) (R : Mat) (hR : IsRotation R) : dotM A R ≤ dotM A (kabsch U Vt) := by
  rw [kabsch_value h, dotM_frame h]
  have ho := frame_ortho h hR
  have hd := frame_det h hR
  have l0 := ortho_diag_le ho 0
  have l1 := ortho_diag_le ho 1
  have l2 := ortho_diag_le ho 2
  have h2 := h.s2
  have h1 := h.s12
  have h0 := h.s01
  rcases uv_det h with hu | hu
  · rw [hu]
    nlinarith [mul_nonneg (le_trans (le_trans h2 h1) h0) (sub_nonneg.mpr l0), mul_nonneg (le_trans h2 h1) (sub_nonneg.mpr l1), mul_nonneg h2 (sub_nonneg.mpr l2)]
  · rw [hu] at hd ⊢
    have ht := mirror_trace_le ho hd
    nlinarith [mul_nonneg (sub_nonneg.mpr (le_trans h1 h0)) (sub_nonneg.mpr l0), mul_nonneg (sub_nonneg.mpr h1) (sub_nonneg.mpr l1), mul_nonneg h2 (sub_nonneg.mpr ht)]

theorem ortho_of_two {Q : Mat} (h : Qᵀ * Q = 1) (h0 : Q 0 0 = 1) (h1 : Q 1 1 = 1) : Q = diagonal ![1, 1, Q.det] := by
  have hc := ortho_comm h
  have e0 := congrFun (congrFun h 0) 0
  have e1 := congrFun (congrFun h 1) 1
  have f0 := congrFun (congrFun hc 0) 0
  have f1 := congrFun (congrFun hc 1) 1
  rw [mul_apply, Fin.sum_univ_three, one_apply_eq] at e0 e1 f0 f1
  simp only [transpose_apply, h0, h1] at e0 e1 f0 f1
  have sq0 : ∀ a b : ℝ, a * a + b * b = 0 → a = 0 ∧ b = 0 := fun a b hab => ⟨by nlinarith [mul_self_nonneg a, mul_self_nonneg b], by nlinarith [mul_self_nonneg a, mul_self_nonneg b]⟩
  obtain ⟨a1, a2⟩ := sq0 (Q 1 0) (Q 2 0) (by linarith)
  obtain ⟨-, b2⟩ := sq0 (Q 0 1) (Q 2 1) (by linarith)
  obtain ⟨c1, c2⟩ := sq0 (Q 0 1) (Q 0 2) (by linarith)
  obtain ⟨-, d2⟩ := sq0 (Q 1 0) (Q 1 2) (by linarith)
  have hdet : Q.det = Q 2 2 := by rw [det_fin_three, h0, h1, a1, a2, b2, c1, c2, d2]; ring
  ext i j
  fin_cases i <;> fin_cases j <;> simp [h0, h1, a1, a2, b2, c1, c2, d2, hdet]

/-- the optimum is unique if there's no mirror, or if the mirrored pair is distinguishable -/
theorem kabsch_unique {A U : Mat} {S : Vec} {Vt : Mat} (h : IsSvd A U S Vt) (hs : 0 < S 1) (hm : (U * Vt).det = 1 ∨ S 2 < S 1) (R : Mat) (hR : IsRotation R)
    (he : dotM A (kabsch U Vt) ≤ dotM A R) : R = kabsch U Vt := by
  rw [kabsch_value h, dotM_frame h] at he
  have ho := frame_ortho h hR
  have hd := frame_det h hR
  have l0 := ortho_diag_le ho 0
  have l1 := ortho_diag_le ho 1
  have l2 := ortho_diag_le ho 2
  have h2 := h.s2
  have h1 := h.s12
  have h0 := h.s01
  have hs0 : 0 < S 0 := lt_of_lt_of_le hs h0
  have two : frameQ U Vt R 0 0 = 1 ∧ frameQ U Vt R 1 1 = 1 := by
    rcases uv_det h with hu | hu
    · rw [hu] at he
      have n0 := mul_nonneg hs0.le (sub_nonneg.mpr l0)
      have n1 := mul_nonneg hs.le (sub_nonneg.mpr l1)
      have n2 := mul_nonneg h2 (sub_nonneg.mpr l2)
      have z0 : S 0 * (1 - frameQ U Vt R 0 0) = 0 := by linarith
      have z1 : S 1 * (1 - frameQ U Vt R 1 1) = 0 := by linarith
      rcases mul_eq_zero.mp z0 with z | z
      · linarith
      · rcases mul_eq_zero.mp z1 with z' | z'
        · linarith
        · exact ⟨by linarith, by linarith⟩
    · rw [hu] at he hd
      have hlt : S 2 < S 1 := by
        rcases hm with hm | hm
        · rw [hu] at hm; norm_num at hm
        · exact hm
      have ht := mirror_trace_le ho hd
      have n0 := mul_nonneg (sub_nonneg.mpr (le_trans h1 h0)) (sub_nonneg.mpr l0)
      have n1 := mul_nonneg (sub_nonneg.mpr h1) (sub_nonneg.mpr l1)
      have n2 := mul_nonneg h2 (sub_nonneg.mpr ht)
      have z0 : (S 0 - S 2) * (1 - frameQ U Vt R 0 0) = 0 := by linarith
      have z1 : (S 1 - S 2) * (1 - frameQ U Vt R 1 1) = 0 := by linarith
      rcases mul_eq_zero.mp z0 with z | z
      · linarith
      · rcases mul_eq_zero.mp z1 with z' | z'
        · linarith
        · exact ⟨by linarith, by linarith⟩
  have hq := ortho_of_two ho two.1 two.2
  rw [frame_back h R, hq, hd]
  unfold kabsch
  rcases uv_det h with hu | hu
  · rw [if_neg (by rw [hu]; norm_num), hu]
    have : (diagonal ![1, 1, 1] : Mat) = 1 := by ext i j; fin_cases i <;> fin_cases j <;> simp
    rw [this, mul_one]
  · rw [if_pos (by rw [hu]; norm_num), hu]; rfl

/-- if the two smaller singular values are 0, then the optimum isn't unique -/
theorem kabsch_ambiguous {A U : Mat} {S : Vec} {Vt : Mat} (h : IsSvd A U S Vt) (hs : S 1 = 0) :
    ∃ R, IsRotation R ∧ R ≠ kabsch U Vt ∧ dotM A R = dotM A (kabsch U Vt) := by
  have h2 : S 2 = 0 := le_antisymm (by rw [← hs]; exact h.s12) h.s2
  have gen : ∀ D : Mat, Dᵀ * D = 1 → D.det = (U * Vt).det → D 0 0 = 1 → D 1 1 = -1 → ∃ R, IsRotation R ∧ R ≠ kabsch U Vt ∧ dotM A R = dotM A (kabsch U Vt) := by
    intro D hD hdet d0 d1
    refine ⟨U * D * Vt, ⟨uv_ortho h D hD, ?_⟩, ?_, ?_⟩
    · rw [det_mul, det_mul, hdet, det_mul]
      have := uv_det h
      rw [det_mul] at this
      rcases this with e | e <;> nlinarith [e]
    · intro he
      have := congrArg (frameQ U Vt) he
      rw [frame_of h] at this
      unfold kabsch at this
      rcases uv_det h with hu | hu
      · rw [if_neg (by rw [hu]; norm_num)] at this
        have t := frame_of h 1
        rw [mul_one] at t
        rw [t] at this
        rw [this] at d1
        norm_num at d1
      · rw [if_pos (by rw [hu]; norm_num), frame_of h] at this
        rw [this] at d1
        simp [mirrorD] at d1
        norm_num at d1
    · rw [kabsch_value h, dotM_frame h, frame_of h, hs, h2, d0]; ring
  rcases uv_det h with hu | hu
  · refine gen (diagonal ![1, -1, -1]) ?_ ?_ (by simp) (by simp)
    · rw [diagonal_transpose, diagonal_mul_diagonal]; ext i j; fin_cases i <;> fin_cases j <;> simp
    · rw [hu, det_diagonal, Fin.prod_univ_three]; simp
  · refine gen (diagonal ![1, -1, 1]) ?_ ?_ (by simp) (by simp)
    · rw [diagonal_transpose, diagonal_mul_diagonal]; ext i j; fin_cases i <;> fin_cases j <;> simp
    · rw [hu, det_diagonal, Fin.prod_univ_three]; simp

/-! ### the C code -/

theorem alignVectors_eq (lapack : Lapack) (N : Nat) (p0 p1 : Nat → Vec) (m0 m1 : Vec) (w : Option (Nat → ℝ)) :
    alignVectors lapack N p0 p1 m0 m1 w = match lapack (outerSum N p0 p1 m0 m1 w) with
      | none => .fatal
      | some (Vt, S, U) => if S 1 < 1e-12 then .singular else .ok (kabsch U Vt) := by
  unfold alignVectors
  cases lapack (outerSum N p0 p1 m0 m1 w) with
  | none => rfl
  | some r =>
    obtain ⟨Vt, S, U⟩ := r
    simp only []
    have e : (fun i j => U i 0 * Vt 0 j + U i 1 * Vt 1 j + U i 2 * Vt 2 j : Mat) = U * Vt := by
      ext i j; rw [mul_apply, Fin.sum_univ_three]
    have e' : (fun i j => U i 0 * Vt 0 j + U i 1 * Vt 1 j - U i 2 * Vt 2 j : Mat) = U * mirrorD * Vt := by
      have k : ∀ i j, (U * mirrorD * Vt) i j = U i 0 * Vt 0 j + U i 1 * Vt 1 j - U i 2 * Vt 2 j := by
        intro i j; rw [mul_apply, Fin.sum_univ_three, mirrorD]; simp only [mul_diagonal]; simp; ring
      exact Matrix.ext fun i j => (k i j).symm
    rw [e, e', detR_eq]
    unfold kabsch
    by_cases hs : S 1 < 1e-12
    · rw [if_pos hs, if_pos hs]
    · rw [if_neg hs, if_neg hs]
      by_cases hd : (U * Vt).det < 0
      · rw [if_pos hd, if_pos hd]
      · rw [if_neg hd, if_neg hd]

/-- the weights are 1 if not given -/
theorem outerSum_eq (N : Nat) (p0 p1 : Nat → Vec) (m0 m1 : Vec) (w : Option (Nat → ℝ)) (j k : Fin 3) :
    outerSum N p0 p1 m0 m1 w j k = ∑ i ∈ Finset.range N, (w.getD fun _ => 1) i * ((p0 i j - m0 j) * (p1 i k - m1 k)) := by
  unfold outerSum
  cases w with
  | none => simp
  | some w => exact Finset.sum_congr rfl fun i _ => by simp only [Option.getD_some]; ring

/-- the sum of the inner products -/
theorem dotM_outer (N : Nat) (p0 p1 : Nat → Vec) (m0 m1 : Vec) (w : Option (Nat → ℝ)) (R : Mat) :
    dotM (outerSum N p0 p1 m0 m1 w) R = ∑ i ∈ Finset.range N, (w.getD fun _ => 1) i * ((p0 i - m0) ⬝ᵥ R.mulVec (p1 i - m1)) := by
  unfold dotM
  simp only [outerSum_eq, Fin.sum_univ_three, Finset.sum_mul, ← Finset.sum_add_distrib]
  refine Finset.sum_congr rfl fun i _ => ?_
  simp only [dotProduct, mulVec, Fin.sum_univ_three, Pi.sub_apply]
  ring

theorem lapack_svd {lapack : Lapack} (hl : LapackOk lapack) {A Vt U : Mat} {S : Vec} (h : lapack A = some (Vt, S, U)) : IsSvd A U S Vt := by
  obtain ⟨e, u, v, s1, s2, s3⟩ := hl _ _ _ _ h
  refine ⟨?_, ?_, ?_, s1, s2, s3⟩
  · have := congrArg transpose e
    simpa only [transpose_transpose, transpose_mul, diagonal_transpose, ← mul_assoc] using this
  · rw [transpose_transpose] at v; exact v
  · rw [transpose_transpose] at u; exact u

/-- **C75**: whatever mrcal_align_procrustes_vectors_R01() computes is a rotation that minimizes the documented cost, for all weights -/
theorem vectors_optimal (lapack : Lapack) (hl : LapackOk lapack) (N : Nat) (v0 v1 : Nat → Vec) (w : Option (Nat → ℝ)) (R : Mat) (h : alignVectorsR01 lapack N v0 v1 w = .ok R) :
    IsRotation R ∧ ∀ R', IsRotation R' → vectorCost N v0 v1 w R ≤ vectorCost N v0 v1 w R' := by
  unfold alignVectorsR01 at h
  rw [alignVectors_eq] at h
  cases hr : lapack (outerSum N v0 v1 0 0 w) with
  | none => rw [hr] at h; cases h
  | some r =>
    obtain ⟨Vt, S, U⟩ := r
    rw [hr] at h
    simp only [] at h
    by_cases hs : S 1 < 1e-12
    · rw [if_pos hs] at h; cases h
    · rw [if_neg hs] at h
      have hR : kabsch U Vt = R := by injection h
      have hsvd := lapack_svd hl hr
      rw [← hR]
      refine ⟨kabsch_rotation hsvd, fun R' hR' => ?_⟩
      have := kabsch_optimal hsvd R' hR'
      rw [dotM_outer, dotM_outer] at this
      simp only [sub_zero] at this
      unfold vectorCost
      linarith

/-! ### points -/

theorem mean_zero (N : Nat) (hN : 0 < N) (p : Nat → Vec) : ∑ i ∈ Finset.range N, (p i - mean N p) = 0 := by
  ext j
  rw [Finset.sum_apply]
  simp only [Pi.sub_apply, mean, Finset.sum_sub_distrib, Finset.sum_const, Finset.card_range, nsmul_eq_mul, Pi.zero_apply]
  have : (N : ℝ) ≠ 0 := by exact_mod_cast hN.ne'
  field_simp
  ring

theorem norm_rot {R : Mat} (h : Rᵀ * R = 1) (v : Vec) : R.mulVec v ⬝ᵥ R.mulVec v = v ⬝ᵥ v := by
  rw [dotProduct_mulVec, vecMul_mulVec, h, vecMul_one]

theorem dot_self_nonneg (v : Vec) : 0 ≤ v ⬝ᵥ v := by
  simp only [dotProduct, Fin.sum_univ_three]; nlinarith [mul_self_nonneg (v 0), mul_self_nonneg (v 1), mul_self_nonneg (v 2)]

/-- the cost, about any centers m0, m1 at which the weighted sums vanish -/
theorem pointCost_split (N : Nat) (a b : Nat → Vec) (w : Nat → ℝ) (m0 m1 : Vec) (h0 : ∑ i ∈ Finset.range N, w i • (a i - m0) = 0) (h1 : ∑ i ∈ Finset.range N, w i • (b i - m1) = 0)
    (R : Mat) (hR : Rᵀ * R = 1) (t : Vec) :
    pointCost N a b w R t = (∑ i ∈ Finset.range N, w i * ((a i - m0) ⬝ᵥ (a i - m0) + (b i - m1) ⬝ᵥ (b i - m1))) - 2 * (∑ i ∈ Finset.range N, w i * ((a i - m0) ⬝ᵥ R.mulVec (b i - m1)))
      + (∑ i ∈ Finset.range N, w i) * ((m0 - R.mulVec m1 - t) ⬝ᵥ (m0 - R.mulVec m1 - t)) := by
  set c := m0 - R.mulVec m1 - t with hc
  have e : ∀ i, a i - (R.mulVec (b i) + t) = (a i - m0) - R.mulVec (b i - m1) + c := by
    intro i; rw [hc, mulVec_sub]; abel
  have term : ∀ i, w i * ((a i - (R.mulVec (b i) + t)) ⬝ᵥ (a i - (R.mulVec (b i) + t))) =
      w i * ((a i - m0) ⬝ᵥ (a i - m0) + (b i - m1) ⬝ᵥ (b i - m1)) - 2 * (w i * ((a i - m0) ⬝ᵥ R.mulVec (b i - m1))) + w i * (c ⬝ᵥ c)
      + 2 * (c ⬝ᵥ (w i • (a i - m0))) - 2 * (c ⬝ᵥ R.mulVec (w i • (b i - m1))) := by
    intro i
    rw [e i, ← norm_rot hR (b i - m1), mulVec_smul, dotProduct_smul, dotProduct_smul]
    generalize R.mulVec (b i - m1) = y
    generalize a i - m0 = x
    simp only [dotProduct, Fin.sum_univ_three, Pi.add_apply, Pi.sub_apply, smul_eq_mul]
    ring
  unfold pointCost
  simp only [term, Finset.sum_sub_distrib, Finset.sum_add_distrib, ← Finset.mul_sum, ← Finset.sum_mul]
  have z0 : ∑ i ∈ Finset.range N, c ⬝ᵥ (w i • (a i - m0)) = 0 := by rw [← dotProduct_sum, h0, dotProduct_zero]
  have z1 : ∑ i ∈ Finset.range N, c ⬝ᵥ R.mulVec (w i • (b i - m1)) = 0 := by rw [← dotProduct_sum, ← mulVec_sum, h1, mulVec_zero, dotProduct_zero]
  rw [z0, z1]
  ring

theorem points_t (R : Mat) (m0 m1 : Vec) : (fun i => m0 i - R i 0 * m1 0 - R i 1 * m1 1 - R i 2 * m1 2) = m0 - R.mulVec m1 := by
  ext i; simp only [Pi.sub_apply, mulVec, dotProduct, Fin.sum_univ_three]; ring

/-- **C75** (part): balanced weights: the weighted means are the unweighted means; and the cost with w[i] outside of the norm -/
theorem points_balanced_partial (lapack : Lapack) (hl : LapackOk lapack) (N : Nat) (p0 p1 : Nat → Vec) (w : Option (Nat → ℝ)) (hw : 0 ≤ ∑ i ∈ Finset.range N, (w.getD fun _ => 1) i)
    (h0 : ∑ i ∈ Finset.range N, (w.getD fun _ => 1) i • (p0 i - mean N p0) = 0) (h1 : ∑ i ∈ Finset.range N, (w.getD fun _ => 1) i • (p1 i - mean N p1) = 0)
    (R : Mat) (t : Vec) (h : alignPointsRt01 lapack N p0 p1 w = .ok (R, t)) :
    IsRotation R ∧ ∀ R' t', IsRotation R' → pointCost N p0 p1 (w.getD fun _ => 1) R t ≤ pointCost N p0 p1 (w.getD fun _ => 1) R' t' := by
  unfold alignPointsRt01 at h
  simp only [alignVectors_eq] at h
  cases hr : lapack (outerSum N p0 p1 (mean N p0) (mean N p1) w) with
  | none => rw [hr] at h; cases h
  | some r =>
    obtain ⟨Vt, S, U⟩ := r
    rw [hr] at h
    simp only [] at h
    by_cases hs : S 1 < 1e-12
    · rw [if_pos hs] at h; cases h
    · rw [if_neg hs] at h
      simp only [points_t] at h
      injection h with h
      have hR : kabsch U Vt = R := congrArg Prod.fst h
      have ht : mean N p0 - (kabsch U Vt).mulVec (mean N p1) = t := congrArg Prod.snd h
      have hsvd := lapack_svd hl hr
      rw [← ht, ← hR]
      have hrot := kabsch_rotation hsvd
      refine ⟨hrot, fun R' t' hR' => ?_⟩
      have := kabsch_optimal hsvd R' hR'
      rw [dotM_outer, dotM_outer] at this
      rw [pointCost_split N p0 p1 _ _ _ h0 h1 _ hrot.1, pointCost_split N p0 p1 _ _ _ h0 h1 _ hR'.1]
      have n := mul_nonneg hw (dot_self_nonneg (mean N p0 - R'.mulVec (mean N p1) - t'))
      rw [sub_self, dotProduct_zero, mul_zero]
      linarith

/-- **C75** (without weights): whatever mrcal_align_procrustes_points_Rt01() computes is a rigid transformation that minimizes the documented cost.

With weights the claim is false: `points_weighted_wrong`. `points_balanced_partial` is the part that holds -/
theorem points_optimal_partial (lapack : Lapack) (hl : LapackOk lapack) (N : Nat) (hN : 0 < N) (p0 p1 : Nat → Vec) (R : Mat) (t : Vec) (h : alignPointsRt01 lapack N p0 p1 none = .ok (R, t)) :
    IsRotation R ∧ ∀ R' t', IsRotation R' → documentedCost N p0 p1 (fun _ => 1) R t ≤ documentedCost N p0 p1 (fun _ => 1) R' t' := by
  have e : ∀ R t, documentedCost N p0 p1 (fun _ => 1) R t = pointCost N p0 p1 (fun _ => 1) R t := by
    intro R t; unfold documentedCost pointCost; simp
  simp only [e]
  exact points_balanced_partial lapack hl N p0 p1 none (by simp) (by simpa using mean_zero N hN p0) (by simpa using mean_zero N hN p1) R t h

/-! ### uniqueness -/

theorem svd_det {A U : Mat} {S : Vec} {Vt : Mat} (h : IsSvd A U S Vt) : A.det = (U * Vt).det * (S 0 * S 1 * S 2) := by
  rw [h.eq, det_mul, det_mul, det_mul, det_diagonal, Fin.prod_univ_three]; ring

/-- what the C code returned, and why -/
theorem vectors_cases (lapack : Lapack) (hl : LapackOk lapack) (N : Nat) (p0 p1 : Nat → Vec) (m0 m1 : Vec) (w : Option (Nat → ℝ)) :
    alignVectors lapack N p0 p1 m0 m1 w = .fatal ∨ ∃ U S Vt, IsSvd (outerSum N p0 p1 m0 m1 w) U S Vt ∧
      (S 1 < 1e-12 ∧ alignVectors lapack N p0 p1 m0 m1 w = .singular ∨ 1e-12 ≤ S 1 ∧ alignVectors lapack N p0 p1 m0 m1 w = .ok (kabsch U Vt)) := by
  rw [alignVectors_eq]
  cases hr : lapack (outerSum N p0 p1 m0 m1 w) with
  | none => left; rfl
  | some r =>
    obtain ⟨Vt, S, U⟩ := r
    right
    refine ⟨U, S, Vt, lapack_svd hl hr, ?_⟩
    simp only []
    by_cases hs : S 1 < 1e-12
    · rw [if_pos hs]; exact Or.inl ⟨hs, rfl⟩
    · rw [if_neg hs]; exact Or.inr ⟨not_lt.mp hs, rfl⟩

/-- **C75** (part): the optimal rotation is unique, if no mirroring is needed to align the vectors: if the determinant of the correlation sum(w v0 v1') isn't negative.

The full claim, that a success is reported only if the optimum is unique, is false: `vectors_unique_wrong` -/
theorem vectors_unique_partial (lapack : Lapack) (hl : LapackOk lapack) (N : Nat) (v0 v1 : Nat → Vec) (w : Option (Nat → ℝ)) (R : Mat) (h : alignVectorsR01 lapack N v0 v1 w = .ok R)
    (hd : 0 ≤ det (fun j k => ∑ i ∈ Finset.range N, (w.getD fun _ => 1) i * (v0 i j * v1 i k) : Mat)) (R' : Mat) (hR' : IsRotation R') (he : vectorCost N v0 v1 w R' ≤ vectorCost N v0 v1 w R) :
    R' = R := by
  have hM : (fun j k => ∑ i ∈ Finset.range N, (w.getD fun _ => 1) i * (v0 i j * v1 i k) : Mat) = outerSum N v0 v1 0 0 w := by
    refine Matrix.ext fun j k => ?_
    rw [outerSum_eq]
    simp only [Pi.zero_apply, sub_zero]
  rw [hM] at hd
  unfold alignVectorsR01 at h
  rcases vectors_cases lapack hl N v0 v1 0 0 w with hf | ⟨U, S, Vt, hsvd, ⟨-, hf⟩ | ⟨hs, hf⟩⟩
  · rw [hf] at h; cases h
  · rw [hf] at h; cases h
  · rw [hf] at h
    injection h with h
    rw [← h] at he ⊢
    have hs1 : 0 < S 1 := lt_of_lt_of_le (by norm_num) hs
    refine kabsch_unique hsvd hs1 ?_ R' hR' ?_
    · rw [svd_det hsvd] at hd
      rcases uv_det hsvd with hu | hu
      · exact Or.inl hu
      · right
        rw [hu] at hd
        have h0 : 0 < S 0 * S 1 := mul_pos (lt_of_lt_of_le hs1 hsvd.s01) hs1
        have : S 2 ≤ 0 := by
          by_contra hp
          have := mul_pos h0 (not_le.mp hp)
          linarith
        linarith
    · unfold vectorCost at he
      rw [dotM_outer, dotM_outer]
      simp only [sub_zero]
      linarith

/-- a correlation of rank 1 -/
theorem rank1_s1 {A U : Mat} {S : Vec} {Vt : Mat} (h : IsSvd A U S Vt) (x y : Vec) (hA : A = vecMulVec x y) : S 1 = 0 := by
  have e : diagonal S = vecMulVec (Uᵀ.mulVec x) (Vt.mulVec y) := by
    have : diagonal S = Uᵀ * A * Vtᵀ := by
      rw [h.eq]
      calc diagonal S = (Uᵀ * U) * diagonal S * (Vt * Vtᵀ) := by rw [h.u, h.v, one_mul, mul_one]
        _ = Uᵀ * (U * diagonal S * Vt) * Vtᵀ := by simp only [mul_assoc]
    rw [this, hA]
    ext i j
    simp only [mul_apply, vecMulVec_apply, Fin.sum_univ_three, transpose_apply, mulVec, dotProduct]
    ring
  have e00 := congrFun (congrFun e 0) 0
  have e11 := congrFun (congrFun e 1) 1
  have e01 := congrFun (congrFun e 0) 1
  simp only [diagonal_apply_eq, vecMulVec_apply] at e00 e11
  rw [diagonal_apply_ne _ (by decide), vecMulVec_apply] at e01
  have hp : S 0 * S 1 = 0 := by
    rw [e00, e11]
    rcases mul_eq_zero.mp e01.symm with z | z <;> rw [z] <;> ring
  have h1 : 0 ≤ S 1 := le_trans h.s2 h.s12
  rcases mul_eq_zero.mp hp with z | z
  · exact le_antisymm (by rw [← z]; exact h.s01) h1
  · exact z

/-- **C75**: if one of the sets of vectors is all along one line (in particular if there's just one vector), then an error is reported: there's no unique solution -/
theorem vectors_parallel_error (lapack : Lapack) (hl : LapackOk lapack) (N : Nat) (v0 v1 : Nat → Vec) (w : Option (Nat → ℝ)) (u : Vec) (c : Nat → ℝ)
    (h : (∀ i < N, v1 i = c i • u) ∨ (∀ i < N, v0 i = c i • u)) :
    alignVectorsR01 lapack N v0 v1 w = .fatal ∨ alignVectorsR01 lapack N v0 v1 w = .singular ∧
      ∀ R, IsRotation R → (∀ R', IsRotation R' → vectorCost N v0 v1 w R ≤ vectorCost N v0 v1 w R') → ∃ R', IsRotation R' ∧ R' ≠ R ∧ vectorCost N v0 v1 w R' = vectorCost N v0 v1 w R := by
  have hr : ∃ x y, outerSum N v0 v1 0 0 w = vecMulVec x y := by
    rcases h with h | h
    · refine ⟨∑ i ∈ Finset.range N, ((w.getD fun _ => 1) i * c i) • v0 i, u, ?_⟩
      refine Matrix.ext fun j k => ?_
      rw [outerSum_eq, vecMulVec_apply, Finset.sum_apply, Finset.sum_mul]
      refine Finset.sum_congr rfl fun i hi => ?_
      simp only [h i (Finset.mem_range.mp hi), Pi.zero_apply, sub_zero, Pi.smul_apply, smul_eq_mul]
      ring
    · refine ⟨u, ∑ i ∈ Finset.range N, ((w.getD fun _ => 1) i * c i) • v1 i, ?_⟩
      refine Matrix.ext fun j k => ?_
      rw [outerSum_eq, vecMulVec_apply, Finset.sum_apply, Finset.mul_sum]
      refine Finset.sum_congr rfl fun i hi => ?_
      simp only [h i (Finset.mem_range.mp hi), Pi.zero_apply, sub_zero, Pi.smul_apply, smul_eq_mul]
      ring
  obtain ⟨x, y, hxy⟩ := hr
  unfold alignVectorsR01
  rcases vectors_cases lapack hl N v0 v1 0 0 w with hf | ⟨U, S, Vt, hsvd, ⟨-, hf⟩ | ⟨hs, -⟩⟩
  · exact Or.inl hf
  · right
    refine ⟨hf, fun R hR hopt => ?_⟩
    have hval : ∀ R, vectorCost N v0 v1 w R = -dotM (outerSum N v0 v1 0 0 w) R := by
      intro R; rw [dotM_outer]; simp only [sub_zero]; rfl
    simp only [hval] at hopt ⊢
    have hk := kabsch_rotation hsvd
    have hle := kabsch_optimal hsvd R hR
    have hge := hopt _ hk
    by_cases hRk : R = kabsch U Vt
    · obtain ⟨R', h1, h2, h3⟩ := kabsch_ambiguous hsvd (rank1_s1 hsvd x y hxy)
      exact ⟨R', h1, by rw [hRk]; exact h2, by rw [hRk, h3]⟩
    · exact ⟨_, hk, fun h => hRk h.symm, by linarith⟩
  · rw [rank1_s1 hsvd x y hxy] at hs
    norm_num at hs

/-- **C75**: if one of the sets of points is all along one line (in particular if there are fewer than 3 points), then an error is reported -/
theorem points_collinear_error (lapack : Lapack) (hl : LapackOk lapack) (N : Nat) (p0 p1 : Nat → Vec) (w : Option (Nat → ℝ)) (a u : Vec) (c : Nat → ℝ) (hN : 0 < N)
    (h : (∀ i < N, p1 i = a + c i • u) ∨ (∀ i < N, p0 i = a + c i • u)) :
    alignPointsRt01 lapack N p0 p1 w = .fatal ∨ alignPointsRt01 lapack N p0 p1 w = .singular := by
  have hN' : (N : ℝ) ≠ 0 := by exact_mod_cast hN.ne'
  have hmean : ∀ p : Nat → Vec, (∀ i < N, p i = a + c i • u) → ∀ i < N, ∀ k, p i k - mean N p k = (c i - (∑ i ∈ Finset.range N, c i) / N) * u k := by
    intro p hp i hi k
    have : mean N p k = a k + (∑ i ∈ Finset.range N, c i) / N * u k := by
      unfold mean
      rw [Finset.sum_congr rfl fun i hi => congrFun (hp i (Finset.mem_range.mp hi)) k]
      simp only [Pi.add_apply, Pi.smul_apply, smul_eq_mul, Finset.sum_add_distrib, Finset.sum_const, Finset.card_range, nsmul_eq_mul, ← Finset.sum_mul]
      field_simp
    rw [this, hp i hi]
    simp only [Pi.add_apply, Pi.smul_apply, smul_eq_mul]
    ring
  have hr : ∃ x y, outerSum N p0 p1 (mean N p0) (mean N p1) w = vecMulVec x y := by
    rcases h with h | h
    · refine ⟨∑ i ∈ Finset.range N, ((w.getD fun _ => 1) i * (c i - (∑ i ∈ Finset.range N, c i) / N)) • (p0 i - mean N p0), u, ?_⟩
      refine Matrix.ext fun j k => ?_
      rw [outerSum_eq, vecMulVec_apply, Finset.sum_apply, Finset.sum_mul]
      refine Finset.sum_congr rfl fun i hi => ?_
      rw [hmean p1 h i (Finset.mem_range.mp hi)]
      simp only [Pi.smul_apply, smul_eq_mul, Pi.sub_apply]
      ring
    · refine ⟨u, ∑ i ∈ Finset.range N, ((w.getD fun _ => 1) i * (c i - (∑ i ∈ Finset.range N, c i) / N)) • (p1 i - mean N p1), ?_⟩
      refine Matrix.ext fun j k => ?_
      rw [outerSum_eq, vecMulVec_apply, Finset.sum_apply, Finset.mul_sum]
      refine Finset.sum_congr rfl fun i hi => ?_
      rw [hmean p0 h i (Finset.mem_range.mp hi)]
      simp only [Pi.smul_apply, smul_eq_mul, Pi.sub_apply]
      ring
  obtain ⟨x, y, hxy⟩ := hr
  unfold alignPointsRt01
  rcases vectors_cases lapack hl N p0 p1 (mean N p0) (mean N p1) w with hf | ⟨U, S, Vt, hsvd, ⟨-, hf⟩ | ⟨hs, -⟩⟩
  · left; simp only [hf]
  · right; simp only [hf]
  · rw [rank1_s1 hsvd x y hxy] at hs
    norm_num at hs

/-! ### the Python implementation -/

theorem svdRotation_eq (svd : NumpySvd) (A : Mat) : svdRotation svd A = match svd A with
    | none => .exception
    | some (V, S, Ut) => if S 1 < 1e-12 then .array none else .array (some (kabsch V Ut)) := by
  unfold svdRotation
  cases svd A with
  | none => rfl
  | some r =>
    obtain ⟨V, S, Ut⟩ := r
    simp only []
    have e : ((fun i j => if j = 2 then V i j * (-1) else V i j : Mat)) = V * mirrorD := by
      refine Matrix.ext fun i j => ?_
      rw [mirrorD, mul_diagonal]
      fin_cases j <;> simp
    rw [e]
    unfold kabsch
    by_cases hs : S 1 < 1e-12
    · rw [if_pos hs, if_pos hs]
    · rw [if_neg hs, if_neg hs]
      by_cases hd : (V * Ut).det < 0
      · rw [if_pos hd, if_pos hd]
      · rw [if_neg hd, if_neg hd]

/-- **C75**: the two implementations are identical: with the same singular value decomposition, arrays that are contiguous and those that aren't produce the same rotation -/
theorem vectors_contiguous (lapack : Lapack) (svd : NumpySvd) (hsame : ∀ A, lapack A = (svd A).map fun r => (r.2.2, r.2.1, r.1)) (N : Nat) (v0 v1 : Nat → Vec) (w : Option (Nat → ℝ)) :
    alignVectorsApi lapack svd true N v0 v1 w = alignVectorsApi lapack svd false N v0 v1 w := by
  unfold alignVectorsApi
  simp only [Bool.not_true, Bool.false_eq_true, if_false, Bool.not_false, if_true]
  unfold alignVectorsPython alignVectorsR01
  have hM : (fun j k => ∑ i ∈ Finset.range N, v0 i j * (w.getD fun _ => 1) i * v1 i k : Mat) = outerSum N v0 v1 0 0 w := by
    refine Matrix.ext fun j k => ?_
    rw [outerSum_eq]
    refine Finset.sum_congr rfl fun i _ => ?_
    simp only [Pi.zero_apply, sub_zero]; ring
  simp only [hM, svdRotation_eq, alignVectors_eq, hsame]
  cases svd (outerSum N v0 v1 0 0 w) with
  | none => rfl
  | some r =>
    obtain ⟨V, S, Ut⟩ := r
    simp only [Option.map_some]
    by_cases hs : S 1 < 1e-12
    · rw [if_pos hs, if_pos hs]; rfl
    · rw [if_neg hs, if_neg hs]; rfl

/-- **C75**: the same for points -/
theorem points_contiguous (lapack : Lapack) (svd : NumpySvd) (hsame : ∀ A, lapack A = (svd A).map fun r => (r.2.2, r.2.1, r.1)) (N : Nat) (p0 p1 : Nat → Vec) (w : Option (Nat → ℝ)) :
    alignPointsApi lapack svd true N p0 p1 w = alignPointsApi lapack svd false N p0 p1 w := by
  unfold alignPointsApi
  simp only [Bool.not_true, Bool.false_eq_true, if_false, Bool.not_false, if_true]
  unfold alignPointsPython alignPointsRt01
  have hM : (fun j k => ∑ i ∈ Finset.range N, (p0 i j - mean N p0 j) * (w.getD fun _ => 1) i * (p1 i k - mean N p1 k) : Mat) = outerSum N p0 p1 (mean N p0) (mean N p1) w := by
    refine Matrix.ext fun j k => ?_
    rw [outerSum_eq]
    refine Finset.sum_congr rfl fun i _ => ?_
    ring
  simp only [hM, svdRotation_eq, alignVectors_eq, hsame]
  cases svd (outerSum N p0 p1 (mean N p0) (mean N p1) w) with
  | none => rfl
  | some r =>
    obtain ⟨V, S, Ut⟩ := r
    simp only [Option.map_some]
    by_cases hs : S 1 < 1e-12
    · rw [if_pos hs, if_pos hs]; rfl
    · rw [if_neg hs, if_neg hs]
      simp only [points_t]; rfl

/-- **C75**: through the Python API, for contiguous arrays or not: the result is all 0 (an error), or an optimal rotation -/
theorem vectors_api (lapack : Lapack) (svd : NumpySvd) (hl : LapackOk lapack) (hn : NumpyOk svd) (contiguous : Bool) (N : Nat) (v0 v1 : Nat → Vec) (w : Option (Nat → ℝ)) (R : Mat)
    (h : alignVectorsApi lapack svd contiguous N v0 v1 w = .array R) :
    R = 0 ∨ IsRotation R ∧ ∀ R', IsRotation R' → vectorCost N v0 v1 w R ≤ vectorCost N v0 v1 w R' := by
  have main : ∀ l, LapackOk l → alignVectorsApi l svd true N v0 v1 w = .array R → R = 0 ∨ IsRotation R ∧ ∀ R', IsRotation R' → vectorCost N v0 v1 w R ≤ vectorCost N v0 v1 w R' := by
    intro l hl h
    unfold alignVectorsApi at h
    simp only [Bool.not_true, Bool.false_eq_true, if_false] at h
    cases hr : alignVectorsR01 l N v0 v1 w with
    | fatal => rw [hr] at h; cases h
    | singular => rw [hr] at h; injection h with h; exact Or.inl h.symm
    | ok R0 => rw [hr] at h; injection h with h; rw [← h]; exact Or.inr (vectors_optimal l hl N v0 v1 w R0 hr)
  cases contiguous with
  | true => exact main lapack hl h
  | false =>
    let l : Lapack := fun A => (svd A).map fun r => (r.2.2, r.2.1, r.1)
    have hl' : LapackOk l := by
      intro a u s vt hs
      simp only [l] at hs
      cases hr : svd a with
      | none => rw [hr] at hs; cases hs
      | some r =>
        rw [hr] at hs
        obtain ⟨V, S, Ut⟩ := r
        simp only [Option.map_some, Option.some.injEq, Prod.mk.injEq] at hs
        obtain ⟨rfl, rfl, rfl⟩ := hs
        obtain ⟨e, hu, hv, s1, s2, s3⟩ := hn _ _ _ _ hr
        refine ⟨?_, ?_, ?_, s1, s2, s3⟩
        · rw [e]; simp only [transpose_mul, diagonal_transpose, mul_assoc]
        · rw [transpose_transpose]; exact hv
        · rw [transpose_transpose]; exact hu
    refine main l hl' ?_
    rw [vectors_contiguous l svd (fun A => rfl)]
    unfold alignVectorsApi at h ⊢
    exact h

/-! ### the documented claims that don't hold -/

theorem scalar_svd {A U : Mat} {S : Vec} {Vt : Mat} (h : IsSvd A U S Vt) (k : ℝ) (hk : 0 ≤ k) (hA : A = k • (1 : Mat)) (i : Fin 3) : S i = k := by
  have e : diagonal S = k • (Uᵀ * Vtᵀ) := by
    calc diagonal S = (Uᵀ * U) * diagonal S * (Vt * Vtᵀ) := by rw [h.u, h.v, one_mul, mul_one]
      _ = Uᵀ * (U * diagonal S * Vt) * Vtᵀ := by simp only [mul_assoc]
      _ = k • (Uᵀ * Vtᵀ) := by rw [← h.eq, hA]; simp
  have e2 : diagonal S * (diagonal S)ᵀ = (k * k) • (1 : Mat) := by
    rw [e, transpose_smul, transpose_mul, transpose_transpose, transpose_transpose, smul_mul_smul_comm]
    congr 1
    calc Uᵀ * Vtᵀ * (Vt * U) = Uᵀ * (Vtᵀ * Vt) * U := by simp only [mul_assoc]
      _ = 1 := by rw [mul_eq_one_comm.mp h.v, mul_one, h.u]
  have e3 := congrFun (congrFun e2 i) i
  rw [diagonal_transpose, diagonal_mul_diagonal, diagonal_apply_eq, Matrix.smul_apply, one_apply_eq, smul_eq_mul, mul_one] at e3
  have hS : 0 ≤ S i := by
    have h1 := le_trans h.s2 h.s12
    have h0 := le_trans h1 h.s01
    fin_cases i
    · exact h0
    · exact h1
    · exact h.s2
  nlinarith

/-- the ends of the three axes -/
def six : Nat → Vec
  | 0 => ![1, 0, 0]
  | 1 => ![-1, 0, 0]
  | 2 => ![0, 1, 0]
  | 3 => ![0, -1, 0]
  | 4 => ![0, 0, 1]
  | _ => ![0, 0, -1]

/-- more weight on the first point than on the second -/
def sixW : Nat → ℝ
  | 0 => 3
  | 1 => 1
  | _ => 2

theorem mean_six (c : ℝ) : mean 6 (fun i => c • six i) = 0 := by
  ext j
  simp only [mean, Finset.sum_range_succ, Finset.sum_range_zero, six, Pi.smul_apply, smul_eq_mul, Pi.zero_apply]
  fin_cases j <;> simp

theorem documented_eq (N : Nat) (a b : Nat → Vec) (w : Nat → ℝ) (R : Mat) (t : Vec) : documentedCost N a b w R t = pointCost N a b (fun i => w i * w i) R t := by
  unfold documentedCost pointCost
  refine Finset.sum_congr rfl fun i _ => ?_
  rw [smul_dotProduct, dotProduct_smul, smul_eq_mul, smul_eq_mul]
  ring

theorem six_better (u : Nat → ℝ) (d s : ℝ) (hs : 0 < s) (hd : d ≠ 0) (h0 : ∑ i ∈ Finset.range 6, u i • (six i - ![d, 0, 0]) = 0) (hu : ∑ i ∈ Finset.range 6, u i = s) (R : Mat) (hR : IsRotation R) :
    pointCost 6 six (fun i => (2 : ℝ) • six i) u R (![d, 0, 0] - R.mulVec ((2 : ℝ) • ![d, 0, 0])) < pointCost 6 six (fun i => (2 : ℝ) • six i) u R 0 := by
  have h1 : ∑ i ∈ Finset.range 6, u i • ((2 : ℝ) • six i - (2 : ℝ) • ![d, 0, 0]) = 0 := by
    simp only [← smul_sub, smul_comm _ (2 : ℝ)]
    rw [← Finset.smul_sum, h0, smul_zero]
  rw [pointCost_split 6 _ _ _ _ _ h0 h1 R hR.1, pointCost_split 6 _ _ _ _ _ h0 h1 R hR.1, sub_self, dotProduct_zero, mul_zero, sub_zero, hu]
  have hn := norm_rot hR.1 ((2 : ℝ) • ![d, 0, 0])
  set y := R.mulVec ((2 : ℝ) • ![d, 0, 0]) with hy
  have hd2 : 0 < d * d := mul_self_pos.mpr hd
  have hpos : 0 < (![d, 0, 0] - y) ⬝ᵥ (![d, 0, 0] - y) := by
    rcases lt_or_eq_of_le (dot_self_nonneg (![d, 0, 0] - y)) with h | h
    · exact h
    · exfalso
      simp only [dotProduct, Fin.sum_univ_three, Pi.sub_apply, Pi.smul_apply, smul_eq_mul] at h hn
      simp at h hn
      have q0 : d - y 0 = 0 := by nlinarith [mul_self_nonneg (d - y 0), mul_self_nonneg (y 1), mul_self_nonneg (y 2)]
      have q1 : y 1 * y 1 = 0 := by nlinarith [mul_self_nonneg (d - y 0), mul_self_nonneg (y 1), mul_self_nonneg (y 2)]
      have q2 : y 2 * y 2 = 0 := by nlinarith [mul_self_nonneg (d - y 0), mul_self_nonneg (y 1), mul_self_nonneg (y 2)]
      rw [q1, q2, ← sub_eq_zero.mp q0] at hn
      nlinarith
  have := mul_pos hs hpos
  linarith

/-- **C75** is false with weights: the means aren't weighted. Whatever (accurate) decomposition is used: for these points the result is reported as a success, but it's not optimal: with the same rotation, some
other translation has a lower cost; both with the documented cost, and with the weights outside of the norm -/
theorem points_weighted_wrong (lapack : Lapack) (hl : LapackOk lapack) (hok : alignPointsRt01 lapack 6 six (fun i => (2 : ℝ) • six i) (some sixW) ≠ .fatal) :
    ∃ R t, alignPointsRt01 lapack 6 six (fun i => (2 : ℝ) • six i) (some sixW) = .ok (R, t) ∧ IsRotation R ∧
      (∃ t', documentedCost 6 six (fun i => (2 : ℝ) • six i) sixW R t' < documentedCost 6 six (fun i => (2 : ℝ) • six i) sixW R t) ∧
      (∃ t', pointCost 6 six (fun i => (2 : ℝ) • six i) sixW R t' < pointCost 6 six (fun i => (2 : ℝ) • six i) sixW R t) := by
  have hm0 : mean 6 six = 0 := by simpa using mean_six 1
  have hm1 := mean_six 2
  have hM : outerSum 6 six (fun i => (2 : ℝ) • six i) 0 0 (some sixW) = (8 : ℝ) • (1 : Mat) := by
    refine Matrix.ext fun j k => ?_
    rw [outerSum_eq]
    simp only [Finset.sum_range_succ, Finset.sum_range_zero, six, sixW, Pi.smul_apply, smul_eq_mul, Pi.zero_apply, Option.getD_some]
    fin_cases j <;> fin_cases k <;> simp <;> norm_num
  unfold alignPointsRt01 at hok ⊢
  simp only [hm0, hm1] at hok ⊢
  rcases vectors_cases lapack hl 6 six (fun i => (2 : ℝ) • six i) 0 0 (some sixW) with hf | ⟨U, S, Vt, hsvd, ⟨hs, hf⟩ | ⟨hs, hf⟩⟩
  · rw [hf] at hok; exact absurd rfl hok
  · rw [scalar_svd hsvd 8 (by norm_num) hM] at hs
    norm_num at hs
  · rw [hf]
    have hrot := kabsch_rotation hsvd
    refine ⟨_, _, rfl, hrot, ?_, ?_⟩
    · rw [points_t, mulVec_zero, sub_zero]
      simp only [documented_eq]
      refine ⟨_, six_better _ (4 / 13) 26 (by norm_num) (by norm_num) ?_ ?_ _ hrot⟩
      · ext j
        simp only [Finset.sum_range_succ, Finset.sum_range_zero, six, sixW, Pi.add_apply, Pi.smul_apply, Pi.sub_apply, smul_eq_mul, Pi.zero_apply]
        fin_cases j <;> simp <;> norm_num
      · simp only [Finset.sum_range_succ, Finset.sum_range_zero, sixW]; norm_num
    · rw [points_t, mulVec_zero, sub_zero]
      refine ⟨_, six_better _ (1 / 6) 12 (by norm_num) (by norm_num) ?_ ?_ _ hrot⟩
      · ext j
        simp only [Finset.sum_range_succ, Finset.sum_range_zero, six, sixW, Pi.add_apply, Pi.smul_apply, Pi.sub_apply, smul_eq_mul, Pi.zero_apply]
        fin_cases j <;> simp <;> norm_num
      · simp only [Finset.sum_range_succ, Finset.sum_range_zero, sixW]; norm_num

/-- the three axes -/
def axes : Nat → Vec
  | 0 => ![1, 0, 0]
  | 1 => ![0, 1, 0]
  | _ => ![0, 0, 1]

theorem vectorCost_axes (R : Mat) : vectorCost 3 (fun i => -axes i) axes none R = R 0 0 + R 1 1 + R 2 2 := by
  unfold vectorCost
  simp only [Finset.sum_range_succ, Finset.sum_range_zero, axes, Option.getD_none, neg_dotProduct, one_mul]
  simp [mulVec, dotProduct, Fin.sum_univ_three]
  ring

/-- **C75**, a success is reported though the solution isn't unique: each vector is to be mapped to its opposite. Rotating by 180deg about any axis is equally good, and optimal. (The check looks at the second
singular value only; if a mirror is to be avoided, the last two must also differ) -/
theorem vectors_unique_wrong (lapack : Lapack) (hl : LapackOk lapack) (hok : alignVectorsR01 lapack 3 (fun i => -axes i) axes none ≠ .fatal) :
    ∃ R, alignVectorsR01 lapack 3 (fun i => -axes i) axes none = .ok R ∧ IsRotation R ∧
      ∃ R', IsRotation R' ∧ R' ≠ R ∧ vectorCost 3 (fun i => -axes i) axes none R' = vectorCost 3 (fun i => -axes i) axes none R := by
  have hM : outerSum 3 (fun i => -axes i) axes 0 0 none = -(1 : Mat) := by
    refine Matrix.ext fun j k => ?_
    rw [outerSum_eq]
    simp only [Finset.sum_range_succ, Finset.sum_range_zero, axes, Pi.zero_apply, Option.getD_none]
    fin_cases j <;> fin_cases k <;> simp
  have hrot : ∀ a b c : ℝ, a * a = 1 → b * b = 1 → c * c = 1 → a * b * c = 1 → IsRotation (diagonal ![a, b, c]) := by
    intro a b c ha hb hc hd
    constructor
    · rw [diagonal_transpose, diagonal_mul_diagonal, ← diagonal_one]
      congr 1
      ext i
      fin_cases i
      · exact ha
      · exact hb
      · exact hc
    · rw [det_diagonal, Fin.prod_univ_three]; exact hd
  have hcost : ∀ a b c : ℝ, vectorCost 3 (fun i => -axes i) axes none (diagonal ![a, b, c]) = a + b + c := by
    intro a b c; rw [vectorCost_axes]; simp
  unfold alignVectorsR01 at hok ⊢
  rcases vectors_cases lapack hl 3 (fun i => -axes i) axes 0 0 none with hf | ⟨U, S, Vt, hsvd, hc⟩
  · exact absurd hf hok
  · have hS : ∀ i, S i = 1 := by
      have hneg : IsSvd ((1 : ℝ) • (1 : Mat)) (-U) S Vt := by
        obtain ⟨e, hu, hv, h1, h2, h3⟩ := hsvd
        refine ⟨?_, ?_, hv, h1, h2, h3⟩
        · rw [neg_mul, neg_mul, ← e, hM, neg_neg, one_smul]
        · rw [transpose_neg, neg_mul_neg, hu]
      exact scalar_svd hneg 1 (by norm_num) rfl
    rcases hc with ⟨hs, -⟩ | ⟨-, hf⟩
    · rw [hS] at hs; norm_num at hs
    · have hk := kabsch_rotation hsvd
      refine ⟨_, hf, hk, ?_⟩
      have hval : vectorCost 3 (fun i => -axes i) axes none (kabsch U Vt) = -1 := by
        have e1 : vectorCost 3 (fun i => -axes i) axes none (kabsch U Vt) = -dotM (outerSum 3 (fun i => -axes i) axes 0 0 none) (kabsch U Vt) := by
          rw [dotM_outer]; simp only [sub_zero]; rfl
        rw [e1, kabsch_value hsvd, hS, hS, hS]
        have hdet := svd_det hsvd
        rw [hM, hS, hS, hS, det_neg, det_one, Fintype.card_fin] at hdet
        norm_num at hdet
        rw [det_mul, ← hdet]; norm_num
      by_cases hd : kabsch U Vt = diagonal ![1, -1, -1]
      · refine ⟨diagonal ![-1, 1, -1], hrot _ _ _ (by norm_num) (by norm_num) (by norm_num) (by norm_num), ?_, ?_⟩
        · rw [hd]
          intro h
          have := congrFun (congrFun h 0) 0
          simp at this
          norm_num at this
        · rw [hval, hcost]; norm_num
      · refine ⟨diagonal ![1, -1, -1], hrot _ _ _ (by norm_num) (by norm_num) (by norm_num) (by norm_num), fun h => hd h.symm, ?_⟩
        rw [hval, hcost]; norm_num

/-- **C75**: the converse, that an error is reported only if there's no unique solution, is false too: the threshold is absolute. Six points 0.1um from the origin, aligned to themselves: the only perfect
alignment is the identity, but an error is reported -/
theorem points_scale_wrong (lapack : Lapack) (hl : LapackOk lapack) :
    (∀ R, alignPointsRt01 lapack 6 (fun i => (1e-7 : ℝ) • six i) (fun i => (1e-7 : ℝ) • six i) none ≠ .ok R) ∧
    pointCost 6 (fun i => (1e-7 : ℝ) • six i) (fun i => (1e-7 : ℝ) • six i) (fun _ => 1) 1 0 = 0 ∧
    ∀ R t, pointCost 6 (fun i => (1e-7 : ℝ) • six i) (fun i => (1e-7 : ℝ) • six i) (fun _ => 1) R t ≤ 0 → R = 1 ∧ t = 0 := by
  refine ⟨fun R h => ?_, ?_, fun R t h => ?_⟩
  · have hm := mean_six 1e-7
    have hM : outerSum 6 (fun i => (1e-7 : ℝ) • six i) (fun i => (1e-7 : ℝ) • six i) 0 0 none = (2e-14 : ℝ) • (1 : Mat) := by
      refine Matrix.ext fun j k => ?_
      rw [outerSum_eq]
      simp only [Finset.sum_range_succ, Finset.sum_range_zero, six, Pi.smul_apply, smul_eq_mul, Pi.zero_apply, Option.getD_none]
      fin_cases j <;> fin_cases k <;> simp <;> norm_num
    unfold alignPointsRt01 at h
    simp only [hm] at h
    rcases vectors_cases lapack hl 6 (fun i => (1e-7 : ℝ) • six i) (fun i => (1e-7 : ℝ) • six i) 0 0 none with hf | ⟨U, S, Vt, hsvd, ⟨-, hf⟩ | ⟨hs, -⟩⟩
    · rw [hf] at h; cases h
    · rw [hf] at h; cases h
    · rw [scalar_svd hsvd 2e-14 (by norm_num) hM] at hs
      norm_num at hs
  · unfold pointCost
    simp
  · unfold pointCost at h
    have hz : ∀ i < 6, (1e-7 : ℝ) • six i = R.mulVec ((1e-7 : ℝ) • six i) + t := by
      intro i hi
      have hnn : ∀ i ∈ Finset.range 6, 0 ≤ (1 : ℝ) * (((1e-7 : ℝ) • six i - (R.mulVec ((1e-7 : ℝ) • six i) + t)) ⬝ᵥ ((1e-7 : ℝ) • six i - (R.mulVec ((1e-7 : ℝ) • six i) + t))) := by
        intro i _
        rw [one_mul]; exact dot_self_nonneg _
      have h0 := (Finset.sum_eq_zero_iff_of_nonneg hnn).mp (le_antisymm h (Finset.sum_nonneg hnn)) i (Finset.mem_range.mpr hi)
      rw [one_mul] at h0
      refine sub_eq_zero.mp ?_
      generalize (1e-7 : ℝ) • six i - (R.mulVec ((1e-7 : ℝ) • six i) + t) = v at h0
      simp only [dotProduct, Fin.sum_univ_three] at h0
      ext j
      have q : ∀ a b c : ℝ, a * a + b * b + c * c = 0 → a = 0 ∧ b = 0 ∧ c = 0 := by
        intro a b c h
        refine ⟨mul_self_eq_zero.mp ?_, mul_self_eq_zero.mp ?_, mul_self_eq_zero.mp ?_⟩ <;> nlinarith [mul_self_nonneg a, mul_self_nonneg b, mul_self_nonneg c]
      obtain ⟨q0, q1, q2⟩ := q _ _ _ h0
      fin_cases j
      · exact q0
      · exact q1
      · exact q2
    have ht : t = 0 := by
      have e0 := hz 0 (by norm_num)
      have e1 := hz 1 (by norm_num)
      have hneg : six 1 = -six 0 := by ext i; fin_cases i <;> simp [six]
      rw [hneg, smul_neg, mulVec_neg] at e1
      ext i
      have a0 := congrFun e0 i
      have a1 := congrFun e1 i
      simp only [Pi.add_apply, Pi.neg_apply, Pi.zero_apply] at a0 a1 ⊢
      linarith
    refine ⟨?_, ht⟩
    rw [ht] at hz
    have hc : ∀ i < 6, six i = R.mulVec (six i) := by
      intro i hi
      have := hz i hi
      rw [add_zero, mulVec_smul] at this
      exact smul_right_injective _ (by norm_num : (1e-7 : ℝ) ≠ 0) this
    refine Matrix.ext fun i j => ?_
    have c0 := congrFun (hc 0 (by norm_num)) i
    have c1 := congrFun (hc 2 (by norm_num)) i
    have c2 := congrFun (hc 4 (by norm_num)) i
    simp [six, mulVec, dotProduct, Fin.sum_univ_three] at c0 c1 c2
    fin_cases j
    · fin_cases i <;> simpa using c0.symm
    · fin_cases i <;> simpa using c1.symm
    · fin_cases i <;> simpa using c2.symm

/-! ### non-vacuity -/

open Classical in
/-- a decomposition that is right, but that succeeds only for a few matrices -/
noncomputable def exSvd : NumpySvd := fun A =>
  if A = diagonal ![3, 2, 1] then some (1, ![3, 2, 1], 1)
  else if A = (8 : ℝ) • (1 : Mat) then some (1, ![8, 8, 8], 1)
  else if A = -(1 : Mat) then some (-1, ![1, 1, 1], 1)
  else if A = diagonal ![5, 0, 0] then some (1, ![5, 0, 0], 1) else none

noncomputable def exLapack : Lapack := fun A => (exSvd A).map fun r => (r.2.2, r.2.1, r.1)

theorem exSvd_ok : NumpyOk exSvd := by
  intro a u s vt h
  unfold exSvd at h
  split_ifs at h with h1 h2 h3 h4
  · simp only [Option.some.injEq, Prod.mk.injEq] at h
    obtain ⟨rfl, rfl, rfl⟩ := h
    exact ⟨by rw [h1]; simp, by simp, by simp, by simp; norm_num, by simp, by simp⟩
  · simp only [Option.some.injEq, Prod.mk.injEq] at h
    obtain ⟨rfl, rfl, rfl⟩ := h
    refine ⟨?_, by simp, by simp, by simp, by simp, by simp⟩
    rw [h2, one_mul, mul_one, smul_one_eq_diagonal]
    congr 1; ext i; fin_cases i <;> rfl
  · simp only [Option.some.injEq, Prod.mk.injEq] at h
    obtain ⟨rfl, rfl, rfl⟩ := h
    refine ⟨?_, by simp, by simp, by simp, by simp, by simp⟩
    rw [h3, mul_one, neg_mul, one_mul, ← diagonal_one]
    congr 2; ext i; fin_cases i <;> rfl
  · simp only [Option.some.injEq, Prod.mk.injEq] at h
    obtain ⟨rfl, rfl, rfl⟩ := h
    exact ⟨by rw [h4]; simp, by simp, by simp, by simp, by simp, by simp⟩

theorem exLapack_ok : LapackOk exLapack := by
  intro a u s vt h
  unfold exLapack at h
  cases hr : exSvd a with
  | none => rw [hr] at h; cases h
  | some r =>
    rw [hr] at h
    obtain ⟨V, S, Ut⟩ := r
    simp only [Option.map_some, Option.some.injEq, Prod.mk.injEq] at h
    obtain ⟨rfl, rfl, rfl⟩ := h
    obtain ⟨e, hu, hv, s1, s2, s3⟩ := exSvd_ok _ _ _ _ hr
    refine ⟨?_, ?_, ?_, s1, s2, s3⟩
    · rw [e]; simp only [transpose_mul, diagonal_transpose, mul_assoc]
    · rw [transpose_transpose]; exact hv
    · rw [transpose_transpose]; exact hu

/-- the weights 3, 2, 1 for the axes -/
def axesW : Nat → ℝ
  | 0 => 3
  | 1 => 2
  | _ => 1

theorem axes_outer : outerSum 3 axes axes 0 0 (some axesW) = diagonal ![3, 2, 1] := by
  refine Matrix.ext fun j k => ?_
  rw [outerSum_eq]
  simp only [Finset.sum_range_succ, Finset.sum_range_zero, axes, axesW, Pi.zero_apply, Option.getD_some]
  fin_cases j <;> fin_cases k <;> simp

/-- `vectors_optimal`, `vectors_unique_partial`, `vectors_api`: aligning the axes to themselves succeeds -/
example : alignVectorsR01 exLapack 3 axes axes (some axesW) = .ok 1 ∧ 0 ≤ det (fun j k => ∑ i ∈ Finset.range 3, ((some axesW).getD fun _ => 1) i * (axes i j * axes i k) : Mat) := by
  constructor
  · unfold alignVectorsR01
    rw [alignVectors_eq, axes_outer]
    have : exLapack (diagonal ![3, 2, 1]) = some (1, ![3, 2, 1], 1) := by unfold exLapack exSvd; rw [if_pos rfl]; rfl
    rw [this]
    simp only []
    rw [if_neg (by simp; norm_num)]
    unfold kabsch
    rw [if_neg (by simp)]
    simp
  · have e : (fun j k => ∑ i ∈ Finset.range 3, ((some axesW).getD fun _ => 1) i * (axes i j * axes i k) : Mat) = diagonal ![3, 2, 1] := by
      rw [← axes_outer]
      refine Matrix.ext fun j k => ?_
      rw [outerSum_eq]
      simp only [Pi.zero_apply, sub_zero]
    rw [e, det_diagonal, Fin.prod_univ_three]
    simp

/-- `points_weighted_wrong`, `vectors_unique_wrong`: the decomposition can succeed -/
example : alignPointsRt01 exLapack 6 six (fun i => (2 : ℝ) • six i) (some sixW) ≠ .fatal ∧ alignVectorsR01 exLapack 3 (fun i => -axes i) axes none ≠ .fatal := by
  have e8 : exLapack ((8 : ℝ) • (1 : Mat)) ≠ none := by
    unfold exLapack exSvd
    split_ifs <;> simp_all
  have e1 : exLapack (-(1 : Mat)) ≠ none := by
    unfold exLapack exSvd
    split_ifs <;> simp_all
  constructor
  · have hm0 : mean 6 six = 0 := by simpa using mean_six 1
    have hM : outerSum 6 six (fun i => (2 : ℝ) • six i) 0 0 (some sixW) = (8 : ℝ) • (1 : Mat) := by
      refine Matrix.ext fun j k => ?_
      rw [outerSum_eq]
      simp only [Finset.sum_range_succ, Finset.sum_range_zero, six, sixW, Pi.smul_apply, smul_eq_mul, Pi.zero_apply, Option.getD_some]
      fin_cases j <;> fin_cases k <;> simp <;> norm_num
    unfold alignPointsRt01
    simp only [hm0, mean_six 2, alignVectors_eq, hM]
    cases hr : exLapack ((8 : ℝ) • (1 : Mat)) with
    | none => exact absurd hr e8
    | some r => simp only []; split_ifs <;> simp
  · have hM : outerSum 3 (fun i => -axes i) axes 0 0 none = -(1 : Mat) := by
      refine Matrix.ext fun j k => ?_
      rw [outerSum_eq]
      simp only [Finset.sum_range_succ, Finset.sum_range_zero, axes, Pi.zero_apply, Option.getD_none]
      fin_cases j <;> fin_cases k <;> simp
    unfold alignVectorsR01
    rw [alignVectors_eq, hM]
    cases hr : exLapack (-(1 : Mat)) with
    | none => exact absurd hr e1
    | some r => simp only []; split_ifs <;> simp

/-- `vectors_parallel_error`: one vector -/
example : alignVectorsR01 exLapack 1 axes axes (some fun _ => 5) = .singular ∧ ∀ i < 1, axes i = (1 : ℝ) • axes 0 := by
  have hM : outerSum 1 axes axes 0 0 (some fun _ => 5) = diagonal ![5, 0, 0] := by
    refine Matrix.ext fun j k => ?_
    rw [outerSum_eq]
    simp only [Finset.sum_range_succ, Finset.sum_range_zero, axes, Pi.zero_apply, Option.getD_some]
    fin_cases j <;> fin_cases k <;> simp
  constructor
  · unfold alignVectorsR01
    rw [alignVectors_eq, hM]
    have : exLapack (diagonal ![5, 0, 0]) = some (1, ![5, 0, 0], 1) := by
      have n1 : (diagonal ![5, 0, 0] : Mat) ≠ diagonal ![3, 2, 1] := by
        intro h
        have := congrFun (congrFun h 1) 1
        simp at this
      have n2 : (diagonal ![5, 0, 0] : Mat) ≠ (8 : ℝ) • (1 : Mat) := by
        intro h
        have := congrFun (congrFun h 1) 1
        simp at this
      have n3 : (diagonal ![5, 0, 0] : Mat) ≠ -(1 : Mat) := by
        intro h
        have := congrFun (congrFun h 1) 1
        simp at this
      unfold exLapack exSvd
      rw [if_neg n1, if_neg n2, if_neg n3, if_pos rfl]; rfl
    rw [this]
    simp only []
    rw [if_pos (by simp; norm_num)]
  · intro i hi
    interval_cases i
    rw [one_smul]

/-- `points_optimal_partial`, `points_balanced_partial`: the second set is 4 times larger -/
example : ∃ R t, alignPointsRt01 exLapack 6 six (fun i => (4 : ℝ) • six i) none = .ok (R, t) := by
  have hm0 : mean 6 six = 0 := by simpa using mean_six 1
  have hM : outerSum 6 six (fun i => (4 : ℝ) • six i) 0 0 none = (8 : ℝ) • (1 : Mat) := by
    refine Matrix.ext fun j k => ?_
    rw [outerSum_eq]
    simp only [Finset.sum_range_succ, Finset.sum_range_zero, six, Pi.smul_apply, smul_eq_mul, Pi.zero_apply, Option.getD_none]
    fin_cases j <;> fin_cases k <;> simp <;> norm_num
  have n1 : (8 : ℝ) • (1 : Mat) ≠ diagonal ![3, 2, 1] := by
    intro h
    have := congrFun (congrFun h 1) 1
    simp at this
  have : exLapack ((8 : ℝ) • (1 : Mat)) = some (1, ![8, 8, 8], 1) := by
    unfold exLapack exSvd
    rw [if_neg n1, if_pos rfl]; rfl
  unfold alignPointsRt01
  simp only [hm0, mean_six 4, alignVectors_eq, hM, this]
  rw [if_neg (by simp; norm_num)]
  exact ⟨_, _, rfl⟩

end Mrcal.Procrustes
