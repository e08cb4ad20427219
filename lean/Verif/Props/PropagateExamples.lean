import Verif.Props.PropagateSummaryProps
import Mathlib.MeasureTheory.Integral.Bochner.SumMeasure
/-
Concrete cases for PropagateProps, PropagateSummaryProps: the specifications of CHOLMOD and scipy can be met, and a problem that satisfies all the assumptions
-/
namespace Mrcal.Propagate
open Mrcal Mrcal.Callback Mrcal.Pack Mrcal.StateLayout Matrix MeasureTheory

/-- an array with the given columns -/
def fromCols (n : Nat) (g : Nat → Fin n → ℝ) : Mem := fun k => if h : 0 < n then g (k.toNat / n) ⟨k.toNat % n, Nat.mod_lt _ h⟩ else 0

theorem col_fromCols (n : Nat) (g : Nat → Fin n → ℝ) (r : Nat) : col n (fromCols n g) r = g r := by
  funext i
  have hn : 0 < n := by have := i.2; omega
  unfold col fromCols
  rw [dif_pos hn]
  have h1 : ((r : Int) * n + (i : Nat)).toNat = r * n + i := by
    rw [show ((r : Int) * n + (i : Nat)) = ((r * n + i : Nat) : Int) by push_cast; ring, Int.toNat_natCast]
  have h2 : (r * n + (i : Nat)) / n = r := by rw [Nat.add_comm, Nat.add_mul_div_right _ _ hn, Nat.div_eq_of_lt i.2, Nat.zero_add]
  have h3 : (r * n + (i : Nat)) % n = i := by rw [Nat.add_comm, Nat.add_mul_mod_self_right, Nat.mod_eq_of_lt i.2]
  have h4 : (⟨((r : Int) * n + (i : Nat)).toNat % n, Nat.mod_lt _ hn⟩ : Fin n) = i := Fin.ext (by simp only [h1, h3])
  rw [h4, h1, h2]

/-- each symmetric matrix can be diagonalized -/
theorem diagonalize {n : Nat} (A : Matrix (Fin n) (Fin n) ℝ) (hA : Aᵀ = A) : ∃ (U : Matrix (Fin n) (Fin n) ℝ) (D : Fin n → ℝ), Uᵀ * U = 1 ∧ U * Uᵀ = 1 ∧ A = U * diagonal D * Uᵀ := by
  have hH : A.IsHermitian := by
    unfold Matrix.IsHermitian
    rw [conjTranspose_eq_transpose_of_trivial]; exact hA
  have hUU' : (hH.eigenvectorUnitary : Matrix (Fin n) (Fin n) ℝ)ᵀ * (hH.eigenvectorUnitary : Matrix (Fin n) (Fin n) ℝ) = 1 := by
    have := Unitary.coe_star_mul_self hH.eigenvectorUnitary
    rwa [star_eq_conjTranspose, conjTranspose_eq_transpose_of_trivial] at this
  have hUU := mul_eq_one_comm.1 hUU'
  refine ⟨_, hH.eigenvalues, hUU', hUU, ?_⟩
  have hAU : A * (hH.eigenvectorUnitary : Matrix (Fin n) (Fin n) ℝ) = (hH.eigenvectorUnitary : Matrix (Fin n) (Fin n) ℝ) * diagonal hH.eigenvalues := by
    ext i j
    rw [mul_diagonal]
    have := congrFun (hH.mulVec_eigenvectorBasis j) i
    rw [Pi.smul_apply, smul_eq_mul, mul_comm] at this
    exact this
  rw [← hAU, Matrix.mul_assoc, hUU, Matrix.mul_one]

open Classical in
/-- a CHOLMOD that meets the specification: eigenvectors are used as the factor. -/
noncomputable def exCholmod : Cholmod where
  F := (_ : Nat) × (_ : Nat) × Csr
  factorize n m J := if ∀ v, J.dense m n *ᵥ v = 0 → v = 0 then some ⟨n, m, J⟩ else none
  order f := f.1
  solve2 f sys _ _ b :=
    let M := (f.2.2.dense f.2.1 f.1)ᵀ * f.2.2.dense f.2.1 f.1
    let UD := if h : Mᵀ = M then (⟨(diagonalize M h).choose, (diagonalize M h).choose_spec.choose⟩ : Matrix (Fin f.1) (Fin f.1) ℝ × (Fin f.1 → ℝ)) else ⟨0, 0⟩
    some (fromCols f.1 fun r => match sys with
      | .A => M⁻¹ *ᵥ col f.1 b r
      | .L => UD.1ᵀ *ᵥ col f.1 b r
      | .D => fun i => (UD.2 i)⁻¹ * col f.1 b r i
      | _ => col f.1 b r)

theorem exCholmod_ok : CholmodOk exCholmod where
  factorize n m J _ := by
    unfold exCholmod
    simp only
    split_ifs with h
    · exact ⟨fun _ => h, fun _ => rfl⟩
    · exact ⟨fun h' => absurd h' (by simp), fun h' => absurd h' h⟩
  order n m J f _ hf := by
    unfold exCholmod at hf ⊢
    simp only at hf
    split_ifs at hf with h
    obtain rfl := Option.some.inj hf
    rfl
  solve n m J f _ hf := by
    unfold exCholmod at hf
    simp only at hf
    split_ifs at hf with h
    obtain rfl := Option.some.inj hf
    set M := (J.dense m n)ᵀ * J.dense m n with hM
    have hsym : Mᵀ = M := by rw [hM, transpose_mul, transpose_transpose]
    have hinj : ∀ v, M *ᵥ v = 0 → v = 0 := gram_injective _ h
    have hdet : IsUnit M.det := by
      rw [isUnit_iff_ne_zero]
      intro h0
      obtain ⟨v, hv, hv'⟩ := exists_mulVec_eq_zero_iff.2 h0
      exact hv (hinj v hv')
    obtain ⟨h1, h2, h3⟩ := (diagonalize M hsym).choose_spec.choose_spec
    set U := (diagonalize M hsym).choose with hU
    set D := (diagonalize M hsym).choose_spec.choose with hD
    have hD0 : ∀ i, D i ≠ 0 := by
      have : M.det = U.det * (∏ i, D i) * U.det := by
        conv_lhs => rw [h3]
        rw [det_mul, det_mul, det_diagonal, det_transpose]
      intro i hi
      refine (isUnit_iff_ne_zero.1 hdet) ?_
      rw [this, Finset.prod_eq_zero (Finset.mem_univ i) hi]
      ring
    refine ⟨1, U, D, ?_, fun ncol b _ => ⟨⟨_, rfl, fun r _ => ?_⟩, ⟨_, rfl, fun r _ i => ?_⟩, ⟨_, rfl, fun r _ => ?_⟩, ⟨_, rfl, fun r _ i => ?_⟩⟩⟩
    · intro i j
      conv_lhs => rw [h3]
      rw [Equiv.Perm.one_apply, Equiv.Perm.one_apply, mul_apply]
      exact Finset.sum_congr rfl fun k _ => by rw [mul_diagonal, transpose_apply]
    · rw [col_fromCols]
      simp only
      rw [mulVec_mulVec, mul_nonsing_inv _ hdet, one_mulVec]
    · rw [col_fromCols]; rfl
    · rw [col_fromCols]
      simp only
      rw [dif_pos hsym, mulVec_mulVec, h2, one_mulVec]
    · rw [col_fromCols]
      simp only
      rw [dif_pos hsym]
      simp only
      rw [← mul_assoc, mul_inv_cancel₀ (hD0 i), one_mul]

/-- symmetric matrices have an eigenvalue of the largest magnitude -/
theorem largest_eigenvalue {N : Nat} (hN : 0 < N) (A : Matrix (Fin N) (Fin N) ℝ) (hA : Aᵀ = A) : ∃ l : ℝ, (∃ u, u ≠ 0 ∧ A *ᵥ u = l • u) ∧ ∀ (k : ℝ) u, u ≠ 0 → A *ᵥ u = k • u → |k| ≤ |l| := by
  obtain ⟨U, D, h1, h2, h3⟩ := diagonalize A hA
  obtain ⟨i0, -, hi0⟩ := Finset.exists_max_image Finset.univ (fun i => |D i|) ⟨(⟨0, hN⟩ : Fin N), Finset.mem_univ _⟩
  have key : ∀ w, A *ᵥ (U *ᵥ w) = U *ᵥ fun i => D i * w i := by
    intro w
    rw [h3, mulVec_mulVec, Matrix.mul_assoc, h1, Matrix.mul_one, ← mulVec_mulVec]
    congr 1
    funext i
    exact mulVec_diagonal D w i
  refine ⟨D i0, ⟨U *ᵥ Pi.single i0 1, ?_, ?_⟩, fun k u hu hk => ?_⟩
  · intro h
    have := congrArg (Uᵀ *ᵥ ·) h
    rw [mulVec_mulVec, h1, one_mulVec, Matrix.mulVec_zero] at this
    have := congrFun this i0
    simp at this
  · rw [key, ← mulVec_smul]
    congr 1
    funext i
    by_cases h : i = i0
    · subst h; simp
    · simp [h]
  · have hw : u = U *ᵥ (Uᵀ *ᵥ u) := by rw [mulVec_mulVec, h2, one_mulVec]
    obtain ⟨w, hww⟩ : ∃ w, w = Uᵀ *ᵥ u := ⟨_, rfl⟩
    rw [← hww] at hw
    rw [hw, key, ← mulVec_smul] at hk
    have := congrArg (Uᵀ *ᵥ ·) hk
    rw [mulVec_mulVec, mulVec_mulVec, h1, one_mulVec, one_mulVec] at this
    have hw0 : w ≠ 0 := by
      rintro rfl
      exact hu (by rw [hw, Matrix.mulVec_zero])
    obtain ⟨i, hi⟩ := Function.ne_iff.1 hw0
    have e := congrFun this i
    rw [Pi.smul_apply, smul_eq_mul] at e
    rw [← mul_right_cancel₀ hi e]
    exact hi0 i (Finset.mem_univ i)

open Classical in
/-- a scipy that meets its specification, and that doesn't fail for any symmetric matrix -/
example : ∃ eigsh, EigshOk eigsh ∧ ∀ N V, 0 < N → (mat N V)ᵀ = mat N V → (eigsh N V).isSome = true := by
  refine ⟨fun N V => if h : 0 < N ∧ (mat N V)ᵀ = mat N V then some (largest_eigenvalue h.1 _ h.2).choose else none, fun N V l hs h => ?_, fun N V hN hs => ?_⟩
  · simp only at h
    split_ifs at h with hh
    obtain rfl := Option.some.inj h
    exact (largest_eigenvalue hh.1 _ hh.2).choose_spec
  · simp only
    rw [dif_pos ⟨hN, hs⟩]
    rfl

/-! ### A problem: a board with two corners. Its deflection is optimized -/

noncomputable def exProjU (ipt : Nat) : Proj where
  q xy := if xy = 0 then (if ipt = 0 then 1 else -1) else 0
  dfxy _ := 0
  ivar0 := 0
  ABCDx _ := 0
  ABCDy _ := 0
  nocore _ _ := 0
  drcam _ _ := 0
  dtcam _ _ := 0
  drframe _ _ := 0
  dtframe _ _ := 0
  dpoint _ _ := 0
  dwarp xy i := if (xy : Int) = i then 1 else 0

noncomputable def exU : Ctx where
  d := ⟨1, 0, 1, 0, 0, 1, ⟨false, false, false, false, true, false, false, false⟩, .pinhole⟩
  W := 2
  H := 1
  boards := [⟨0, -1, 0, fun _ _ => 0, fun _ => 1⟩]
  points := []
  tri := []
  projBoard _ ipt := exProjU ipt
  projPoint _ := exProjU 0
  projTri _ _ := ⟨0, fun _ => 0, fun _ => 0, fun _ => 0, fun _ => 0⟩
  intrinsics _ _ := 1
  t0 _ := 1
  imagersizes _ := 100

theorem exU_ok : CtxOk exU := ⟨by decide, rfl, fun o h => by simp [exU] at h, fun h => absurd rfl h⟩

theorem exU_idx : IdxOk exU where
  wf := ⟨by decide, by decide, by decide, by decide, by decide⟩
  boards := by intro o ho; simp [exU] at ho; subst ho; simp [exU]
  points := by simp [exU]
  tri := by simp [exU]
  projBoard := by intro i j; simp [exU, IvarOk]
  projPoint := by intro i; simp [exU, IvarOk]
  grid := by intro _ _ _ _ h; simp [exU] at h

theorem exU_states : numStates exU.d = 2 := by decide

theorem exU_out : optimizerCallback exU = some { x := [1, 0, -1, 0], rowptr := [0, 2, 4, 6, 8], cols := [0, 1, 0, 1, 0, 1, 0, 1], vals := [scaleWarp, 0, 0, scaleWarp, scaleWarp, 0, 0, scaleWarp] } := by
  have hl : Callback.loop 2 = [0, 1] := by decide
  have hn : numIntrinsicsOpt ⟨false, false, false, false, true, false, false, false⟩ .pinhole = 0 := by decide
  simp [optimizerCallback, allRows, triRows, exU, boardRows, pointRows, regDistortionRows, regCenterRows, regUnityRows, boardRow, intrinsicsEntries, hasCalobjectWarp, hl, exProjU, emit,
    stateIndexWarp, numStatesIntrinsics, numStatesExtrinsics, numStatesFrames, numStatesPoints, List.range_succ, hn]

theorem exU_Jv (v : Mem) : (∀ out, optimizerCallback exU = some out → out.x.length = 4 ∧ out.Jv 0 v = scaleWarp * v 0 ∧ out.Jv 1 v = scaleWarp * v 1 ∧ out.Jv 2 v = scaleWarp * v 0 ∧ out.Jv 3 v = scaleWarp * v 1) := by
  intro out ho
  rw [exU_out] at ho
  obtain rfl := Option.some.inj ho
  simp [Out.Jv]

theorem exU_rank (out : Out) (ho : optimizerCallback exU = some out) : FullRank out (numStates exU.d) := by
  intro v hv j hj hj'
  obtain ⟨h1, h2, h3, -⟩ := exU_Jv v out ho
  have hs : scaleWarp ≠ 0 := by unfold scaleWarp; norm_num
  rw [exU_states] at hj'
  have e0 := hv 0 (by omega)
  have e1 := hv 1 (by omega)
  rw [h2] at e0
  rw [h3] at e1
  obtain rfl | rfl : j = 0 ∨ j = 1 := by omega
  · exact (mul_eq_zero.1 e0).resolve_left hs
  · exact (mul_eq_zero.1 e1).resolve_left hs

/-- the deflection is optimal: the residuals 1, -1 can't be reduced -/
theorem exU_opt (out : Out) (ho : optimizerCallback exU = some out) : IsOptimum out (fun _ => 0) fun _ => 0 := by
  intro w
  obtain ⟨h1, h2, h3, h4, h5⟩ := exU_Jv w out ho
  obtain ⟨-, g2, g3, g4, g5⟩ := exU_Jv (fun _ => 0) out ho
  have hx : out.x = [1, 0, -1, 0] := by
    rw [exU_out] at ho
    obtain rfl := Option.some.inj ho
    rfl
  unfold cost
  rw [h1]
  simp only [Finset.sum_range_succ, Finset.sum_range_zero, h2, h3, h4, h5, g2, g3, g4, g5, hx]
  simp only [List.getD_cons_zero, List.getD_cons_succ]
  nlinarith [sq_nonneg (scaleWarp * w 0), sq_nonneg (scaleWarp * w 1)]

/-- the covariance is available here -/
example (eigsh : Eigsh) (N : Nat) (hN : 0 < N) (F : Mem) (σ : ℝ) : ∃ r, propagate exCholmod eigsh "covariance" exU N F (some σ) = some r := by
  obtain ⟨out, ho⟩ : ∃ out, optimizerCallback exU = some out := ⟨_, exU_out⟩
  refine (propagate_succeeds_iff exCholmod exCholmod_ok eigsh "covariance" exU exU_ok exU_idx out ho N hN F (some σ) (by intro h; simp at h)).2 ⟨by simp, by decide, ?_, exU_rank out ho, Or.inl (by decide), Or.inl (by simp)⟩
  rw [(exU_Jv (fun _ => 0) out ho).1]
  decide

/-- nonzero noise that meets the assumptions: one of the measurements, picked at random, is off -/
theorem noise_example (n : Nat) (σ : ℝ) : WhiteNoise (Measure.count : Measure (Fin n)) (fun ω i => if i = (ω : Nat) then σ else 0) n σ where
  none ω i h := if_neg (by have := ω.2; omega)
  integrable i j _ _ := Integrable.of_finite
  cov i j hi hj := by
    rw [integral_count]
    by_cases h : i = j
    · subst h
      rw [if_pos rfl, Finset.sum_eq_single (⟨i, hi⟩ : Fin n)]
      · simp [pow_two]
      · intro b _ hb
        rw [if_neg (fun h => hb (Fin.ext h.symm)), zero_mul]
      · intro h; exact absurd (Finset.mem_univ _) h
    · rw [if_neg h]
      refine Finset.sum_eq_zero fun b _ => ?_
      by_cases hb : i = (b : Nat)
      · rw [if_neg (show ¬ j = (b : Nat) from fun h' => h (hb.trans h'.symm)), mul_zero]
      · rw [if_neg hb, zero_mul]
end Mrcal.Propagate
