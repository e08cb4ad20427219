import Verif.Props.TriPyPoints
import Verif.Props.ProjUncExample
/-
C94: when `mrcal.triangulate()` produces a result; where it doesn't do what's expected; the experiments in the theorems exist
-/
namespace Mrcal.TriPy
open Mrcal Mrcal.Cam Mrcal.Pose Mrcal.Tri Mrcal.AD Mrcal.Callback Mrcal.Pack Mrcal.StateLayout Mrcal.Propagate Mrcal.Uncertainty Mrcal.ProjUnc Mrcal.UnprojectPy Matrix MeasureTheory

/-! ### when there's a result -/

theorem inverse3_some (A : M3) (R : Matrix (Fin 3) (Fin 3) ℝ) (hR : R * Rᵀ = 1) (hA : toMat A = Rᵀ) : ∃ B, inverse3 A = some B := by
  unfold inverse3
  simp only
  rw [if_neg]
  · exact ⟨_, rfl⟩
  · intro h
    have hd : (toMat A).det = 0 := by
      rw [Matrix.det_fin_three]
      simp only [toMat]
      simp
      linear_combination h
    have h1 := congrArg Matrix.det hR
    rw [Matrix.det_mul, ← hA, hd, mul_zero, Matrix.det_one] at h1
    exact zero_ne_one h1

theorem intoPose_rot (T : RtV) (ok : RotOk T) (p : P3) : toMat (intoPose T p).2.2 = (rod T.r)ᵀ :=
  (back_deriv (fun _ => T) (fun _ => p) _ _ _ (const_deriv _) (const_deriv _) (const_deriv _) ok).2.1

theorem stabilize0_some (T : RtV) (ok : RotOk T) (p : P3) : ∃ J, stabilize0 T p = some J := by
  unfold stabilize0
  obtain ⟨B, hB⟩ := inverse3_some _ (rod T.r) (rod_inv' _) (intoPose_rot T ok p)
  simp only [hB]
  exact ⟨_, rfl⟩

theorem stabilizeFrame_some (T Tf : RtV) (ok : RotOk T) (okf : RotOk Tf) (p : P3) : ∃ J, stabilizeFrame T Tf p = some J := by
  unfold stabilizeFrame
  obtain ⟨B, hB⟩ := inverse3_some (Pose.mul (intoPose Tf (intoPose T p).1).2.2 (intoPose T p).2.2) (rod T.r * rod Tf.r)
    (by rw [Matrix.transpose_mul, Matrix.mul_assoc, ← Matrix.mul_assoc (rod Tf.r), rod_inv', one_mul, rod_inv'])
    (by rw [toMat_mul, intoPose_rot T ok, intoPose_rot Tf okf, Matrix.transpose_mul])
  simp only [hB]
  exact ⟨_, rfl⟩

theorem mapM_some {α β : Type} (g : α → Option β) : ∀ l : List α, (∀ a ∈ l, ∃ b, g a = some b) → ∃ r, l.mapM g = some r
  | [], _ => ⟨[], rfl⟩
  | a :: l, h => by
    obtain ⟨b, hb⟩ := h a (by simp)
    obtain ⟨r, hr⟩ := mapM_some g l fun a ha => h a (by simp [ha])
    exact ⟨b :: r, by rw [List.mapM_cons, hb, hr]; rfl⟩

/-- **Specification**: the intrinsics that are optimized. Python's `slice(None,-0)` is empty, so a lens without distortions is possible only if the distortions are nominally optimized: `core_only_wrong` -/
def SliceOk (P : Problem) : Prop := P.d.sel.core = true → P.d.sel.distortions = false → P.d.lens.numParams ≠ 4

theorem intrinsics_some (P : Problem) (h : SliceOk P) (icam : Int) (J : M3) (g : Grads) (F : Cols) : ∃ F', intrinsicsBlock P icam J g F = some F' := by
  unfold intrinsicsBlock
  simp only
  by_cases hs : stateIndexIntrinsics icam P.d ≥ 0
  · rw [if_pos hs, if_pos]
    · exact ⟨_, rfl⟩
    · have hN : 0 < numIntrinsicsOpt P.d.sel P.d.lens := by
        unfold stateIndexIntrinsics at hs
        simp only at hs
        split_ifs at hs <;> omega
      have hn := numParams_ge4 P.d.lens
      unfold SliceOk at h
      unfold sliceOptimized
      unfold numIntrinsicsOpt numDistortionsOpt at hN ⊢
      simp only [hasCore P.d.lens, if_true, Bool.and_true] at hN ⊢
      generalize P.d.lens.numParams = n at hN hn h ⊢
      cases hc : P.d.sel.core <;> cases hd : P.d.sel.distortions <;> rw [hc, hd] at hN h <;> simp at hN h ⊢ <;> (try rw [if_neg (by omega)]) <;> omega
  · rw [if_neg hs]
    exact ⟨_, rfl⟩

/-- one point -/
theorem dpDb_some (P : Problem) (hs : SliceOk P) (okf : BoardsOk P) (s : Slice) (f : Full) (stabilize : Bool) (ok0 : RotOk s.m0.rt) (e0 : (extrinsicsIndex P s.m0.icamI).isSome) (e1 : (extrinsicsIndex P s.m1.icamI).isSome) :
    ∃ F, dpDb P s f stabilize = some F := by
  obtain ⟨J, hJ⟩ := stabilize0_some s.m0.rt ok0 f.c.p
  obtain ⟨F0, h0⟩ := intrinsics_some P hs s.m0.icamI f.c.dv0 f.g0 fun _ => ⟨0, 0, 0⟩
  obtain ⟨F1, h1⟩ := intrinsics_some P hs s.m1.icamI (Pose.mul f.c.dv1 f.dv1_dvlocal1) f.g1 F0
  obtain ⟨i0, hi0⟩ := Option.isSome_iff_exists.1 e0
  obtain ⟨i1, hi1⟩ := Option.isSome_iff_exists.1 e1
  unfold dpDb
  simp only [Option.bind_eq_bind, h0, hi0, hi1, Option.bind_some]
  cases stabilize with
  | false =>
    rw [if_neg (by simp)]
    simp only [Option.bind_some, Bool.false_and, Bool.false_eq_true, if_false, h1]
    exact ⟨_, rfl⟩
  | true =>
    rw [if_pos rfl, hJ, Option.map_some]
    by_cases hf : stateIndexFrames 0 P.d ≥ 0
    · have hsel : P.d.sel.frames = true := by
        by_contra hc
        have hc : P.d.sel.frames = false := by simpa using hc
        unfold stateIndexFrames at hf
        simp only [hc, Bool.not_false, if_true] at hf
        split_ifs at hf <;> omega
      obtain ⟨l, hl⟩ := mapM_some (fun (i : Nat) => stabilizeFrame s.m0.rt (poseAt P.seed (.frame i)) f.c.p) (List.range P.d.Nframes.toNat)
        fun i hi => stabilizeFrame_some _ _ ok0 (okf hsel i (List.mem_range.1 hi)) _
      simp only [Option.bind_some, Bool.true_and, hf, decide_true, if_true, hl, Option.map_some, h1]
      exact ⟨_, rfl⟩
    · simp only [Option.bind_some, Bool.true_and, hf, decide_false, Bool.false_eq_true, if_false, h1]
      exact ⟨_, rfl⟩

theorem callGrad_some (method : Method) (hm : method ≠ .lindstrom) (v0 v1 t : P3) : ∃ c, callGrad method v0 v1 t = some c := by
  unfold callGrad
  cases method <;> first | exact ⟨_, rfl⟩ | exact absurd rfl hm

/-- **Specification**: both pixels can be unprojected, with gradients -/
def Visible (s : Slice) : Prop :=
  (∃ g, unprojectGrads s.m0.lens s.m0.intr s.m0.solve s.m0.prev false s.q0 = some (some g)) ∧ ∃ g, unprojectGrads s.m1.lens s.m1.intr s.m1.solve s.m1.prev false s.q1 = some (some g)

theorem gradFull_exists (method : Method) (hm : method ≠ .lindstrom) (s : Slice) (hv : Visible s) : ∃ f, gradFull method s = some f := by
  obtain ⟨⟨g0, h0⟩, ⟨g1, h1⟩⟩ := hv
  obtain ⟨c, hc⟩ := callGrad_some method hm g0.v (rotatePointr (composert s.m0.rt (invertrt s.m1.rt).1 false false).rt.r g1.v false true true).x (composert s.m0.rt (invertrt s.m1.rt).1 false false).rt.t
  unfold gradFull
  simp only [Option.bind_eq_bind, h0, h1, Option.join_some, Option.bind_some, hc]
  exact ⟨_, rfl⟩

/-- **C94** (availability). The points and the covariances are available, if: the method has gradients (so not lindstrom: `lindstrom_wrong`); both pixels can be unprojected; the calibration is the one that the cameras came from,
it's solvable, and each camera has one pose -/
theorem available (C : Cholmod) (hC : CholmodOk C) (eigsh : Eigsh) (slices : List Slice) (σ : ℝ) (hσ : 0 < σ) (qo : Option ℝ) (hqo : ∀ s, qo = some s → 0 ≤ s) (corr : ℝ) (method : Method) (hm : method ≠ .lindstrom)
    (stabilize : Bool) (P : Problem) (hin : inputsOf slices = some P) (hP : Solved P) (okf : BoardsOk P) (hsl : SliceOk P)
    (hs : ∀ s ∈ slices, Visible s ∧ RotOk s.m0.rt ∧ (extrinsicsIndex P s.m0.icamI).isSome ∧ (extrinsicsIndex P s.m1.icamI).isSome)
    (out : Callback.Out) (ho : optimizerCallback (P.ctx (bPacked P)) = some out) (h0 : 0 < numStates P.d) (hcount : (numObserved (P.ctx (bPacked P)) : Int) + numMeasurementsRegularization P.d = out.x.length)
    (hr : FullRank out (numStates P.d)) (hreg : numMeasurementsRegularization P.d = 0 ∨ 0 < numObserved (P.ctx (bPacked P))) :
    ∃ r, triangulate C eigsh slices (some σ) qo corr method stabilize = some r := by
  obtain ⟨results, hres⟩ := mapM_some (propagateSlice method stabilize (some P)) slices fun s hs' => by
    obtain ⟨hv, hr, he0, he1⟩ := hs s hs'
    obtain ⟨f, hf⟩ := gradFull_exists method hm s hv
    obtain ⟨F, hF⟩ := dpDb_some P hsl okf s f stabilize hr he0 he1
    unfold propagateSlice
    simp only [hf, Option.bind_some, hF, Option.map_some]
    exact ⟨_, rfl⟩
  have hl := (mapM_forall₂ _ _ hres).length_eq
  have hpos : 0 < slices.length := by
    cases slices with
    | nil => simp [inputsOf] at hin
    | cons a l => simp
  obtain ⟨V, hV⟩ := (propagate_succeeds_iff C hC eigsh "covariance" _ (hP.ctx (bPacked P)) (problem_idx P hP.valid (bPacked P)) out ho (3 * results.length) (by omega)
    (flatDb (numStates P.d).toNat (results.filterMap fun r => r.2.2)) (some σ) (by intro h; simp at h)).2 ⟨by simp, h0, hcount, hr, hreg, Or.inl (by simp)⟩
  obtain ⟨V, rfl⟩ := covariance_is_matrix hV
  unfold triangulate
  rw [if_neg (by rintro ⟨s, hs, hs'⟩; have := hqo s hs; linarith), if_neg (by simp [hσ.ne'])]
  unfold noisy
  rw [if_pos (by simp [hσ.ne']), hin, Option.map_some, Option.bind_some, hres, Option.bind_some]
  have hc : varCal C eigsh (some σ) (some P) results = some (some V) := by
    unfold varCal
    simp only [Option.filter, decide_eq_true_eq, if_pos hσ, hV]
  rw [hc, Option.bind_some]
  cases qo <;> exact ⟨_, rfl⟩

/-- **C94** (availability), without the calibration noise: no optimization inputs are needed -/
theorem available_observation (C : Cholmod) (eigsh : Eigsh) (slices : List Slice) (qc : Option ℝ) (hqc : qc = none ∨ qc = some 0) (σ : ℝ) (hσ : 0 < σ) (corr : ℝ) (method : Method) (hm : method ≠ .lindstrom)
    (stabilize : Bool) (hs : ∀ s ∈ slices, Visible s) : ∃ r, triangulate C eigsh slices qc (some σ) corr method stabilize = some r := by
  obtain ⟨results, hres⟩ := mapM_some (propagateSlice method stabilize none) slices fun s hs' => by
    obtain ⟨f, hf⟩ := gradFull_exists method hm s (hs s hs')
    unfold propagateSlice
    simp only [gradFull_simple _ _ _ hf, Option.map_some]
    exact ⟨_, rfl⟩
  unfold triangulate
  rw [if_neg (by rintro ⟨s, hs, hs'⟩; obtain rfl := Option.some.inj hs; linarith), if_neg (by simp [hσ.ne'])]
  unfold noisy
  rw [if_neg (by rcases hqc with h | h <;> simp [h]), Option.bind_some, hres, Option.bind_some]
  unfold varCal
  simp only [Option.bind_some, Option.map_some]
  split <;> first | exact ⟨_, rfl⟩ | simp_all

/-! ### where it fails -/

/-- **C94, negation**: the calibration optimized the intrinsics core, but not the distortions; and the lens has no distortions. The calibration uncertainty isn't available: the code raises an exception, about array shapes -/
theorem core_only_wrong (C : Cholmod) (eigsh : Eigsh) (slices : List Slice) (σ : ℝ) (hσ : σ ≠ 0) (qo : Option ℝ) (corr : ℝ) (method : Method) (stabilize : Bool) (P : Problem) (hin : inputsOf slices = some P)
    (hl : P.d.lens.numParams = 4) (hc : P.d.sel.core = true) (hd : P.d.sel.distortions = false) (hr : ∀ s ∈ slices, 0 ≤ s.m0.icamI ∧ s.m0.icamI < P.d.Nci) :
    triangulate C eigsh slices (some σ) qo corr method stabilize = none := by
  by_contra hcon
  obtain ⟨r, h⟩ := Option.ne_none_iff_exists'.1 hcon
  obtain ⟨inputs, results, hin', hres, -⟩ := noisy_some (triangulate_noisy h (by simp [hσ]))
  rcases hin' with ⟨-, P', hP', rfl⟩ | ⟨hq, -⟩
  swap
  · exact hq ⟨by simp, by simp [hσ]⟩
  obtain rfl := Option.some.inj (hin.symm.trans hP')
  have hall := mapM_forall₂ _ _ hres
  cases hall with
  | nil => simp [inputsOf] at hin
  | @cons s _ _ _ h1 _ =>
    obtain ⟨f, F, hf, hF, -⟩ := slice_full h1
    obtain ⟨_, _, _, _, hb⟩ := dpDb_steps P s f stabilize F hF
    obtain ⟨F0, h0, -⟩ := Option.bind_eq_some_iff.1 hb
    obtain ⟨r0, r1⟩ := hr s (by simp)
    have hN : numIntrinsicsOpt P.d.sel P.d.lens = 4 := by
      unfold numIntrinsicsOpt numDistortionsOpt
      simp [hasCore P.d.lens, hc, hd]
    unfold intrinsicsBlock at h0
    have hi : stateIndexIntrinsics s.m0.icamI P.d ≥ 0 := by
      unfold stateIndexIntrinsics
      simp only [hN]
      rw [if_neg (by omega), if_neg (by omega), if_neg (by simp; omega)]
      omega
    have hs : (sliceOptimized P).2 = 0 := by
      unfold sliceOptimized
      simp [hasCore P.d.lens, hc, hd, hl]
    simp only at h0
    rw [if_pos hi, if_neg (by rw [hs, hN]; omega)] at h0
    simp at h0

/-- **C94, negation**: there's no uncertainty with the lindstrom method. This is documented -/
theorem lindstrom_wrong (C : Cholmod) (eigsh : Eigsh) (s : Slice) (slices : List Slice) (qc qo : Option ℝ) (corr : ℝ) (stabilize : Bool) (hn : ¬ ((qc = none ∨ qc = some 0) ∧ (qo = none ∨ qo = some 0))) :
    triangulate C eigsh (s :: slices) qc qo corr .lindstrom stabilize = none := by
  by_contra hcon
  obtain ⟨r, h⟩ := Option.ne_none_iff_exists'.1 hcon
  obtain ⟨inputs, results, -, hres, -⟩ := noisy_some (triangulate_noisy h hn)
  cases mapM_forall₂ _ _ hres with
  | cons h1 _ =>
    obtain ⟨f, hf, -⟩ := slice_any h1
    obtain ⟨-, -, -, -, hc, -⟩ := gradFull_some _ s f hf
    simp [callGrad, Method.routine] at hc

/-- **C94, negation**: the rays diverge, so that no point could be found: (0,0,0) is reported. The reported covariance due to the observations is 0: as if this point is known perfectly -/
theorem failed_variance_wrong (C : Cholmod) (eigsh : Eigsh) (slices : List Slice) (qc : Option ℝ) (σ : ℝ) (hσ : σ ≠ 0) (corr : ℝ) (stabilize : Bool) (r : Ret)
    (h : triangulate C eigsh slices qc (some σ) corr .leeciveraMid2 stabilize = some r) (i : Nat) (hi : r.points[i]? = some ⟨0, 0, 0⟩) :
    ∃ V W, r.varObservation = some V ∧ V[i]? = some W ∧ ∀ a b, W a b = 0 := by
  obtain ⟨inputs, results, -, hres, -, hp, hobs, -⟩ := noisy_some (triangulate_noisy h (by simp [hσ]))
  have hall := mapM_forall₂ _ _ hres
  have hl := hall.length_eq
  rw [hp, List.getElem?_map] at hi
  obtain ⟨x, hx, hx0⟩ := Option.map_eq_some_iff.1 hi
  obtain ⟨hlt, rfl⟩ := List.getElem?_eq_some_iff.1 hx
  have := (List.forall₂_iff_get.1 hall).2 i (by omega) hlt
  simp only [List.get_eq_getElem] at this
  obtain ⟨f, hf, ep, eq⟩ := slice_any this
  refine ⟨_, _, hobs, by rw [List.getElem?_map, hx, Option.map_some], fun a b => ?_⟩
  obtain ⟨-, -, -, -, hc, -, -, hdq⟩ := gradFull_some _ _ f hf
  have hz : f.c.dv0 = zeroM ∧ f.c.dv1 = zeroM := by
    have e := call_point _ _ _ _ _ hc
    rw [← ep, hx0, triPoint_eq _ _ rfl] at e
    have hs := (mid2_sentinel _ _ _).1 e.symm
    unfold callGrad at hc
    simp only [Method.routine, parseArgs, Bool.false_eq_true, if_false, Option.map_some, Option.some.injEq, hs, gradients, Option.map_none] at hc
    rw [← hc]
    exact ⟨rfl, rfl⟩
  have hq : ∀ k c, pick3 (f.dq k) c = 0 := by
    intro k c
    rw [hdq]
    unfold dpDq
    have m1 : Pose.mulVec f.c.dv0 (qCol f.g0 k) = ⟨0, 0, 0⟩ := by rw [hz.1, mulVec_zeroM]
    have m2 : Pose.mulVec (Pose.mul f.c.dv1 f.dv1_dvlocal1) (qCol f.g1 (k - 2)) = ⟨0, 0, 0⟩ := by rw [mulVec_mul, hz.2, mulVec_zeroM]
    rw [m1, m2, ite_self]
    unfold pick3
    split <;> first | rfl | (split <;> rfl)
  rw [eq]
  unfold varObs
  simp [hq]

/-! ### the experiments exist -/

theorem direct_ray (m : Camera) (func : Core → P2 → Unproj) (hd : direct m.lens = some func) (q : P2) (e : Nat → ℝ) (I : ℝ → Int → ℝ) (I' : Int → ℝ) (hI : ∀ k, HasDerivAt (fun t => I t k) (I' k) 0) (h0 : I 0 = m.intr)
    (hfx : m.intr 0 ≠ 0) (hfy : m.intr 1 ≠ 0) : LooksAt m q e I fun t => (func (coreOf (I t)) (shifted q e t)).v := by
  have s0 : shifted q e 0 = q := by simp [shifted]
  refine ⟨⟨directGrads func m.intr q, ?_, ?_⟩, ⟨_, direct_total func (direct_factors m.lens func hd) I I' hI (shifted q e) ⟨e 0, e 1⟩ (shifted_deriv q e) (by rw [h0]; exact hfx) (by rw [h0]; exact hfy)⟩, ?_⟩
  · unfold unprojectGrads
    rw [hd]
    simp
  · beta_reduce
    rw [h0, s0]
    rfl
  · unfold Ray
    rw [hd]
    refine ⟨s0, fun solve prev => Filter.Eventually.of_forall fun t => ?_⟩
    unfold unproject
    rw [hd]
    simp

theorem moved_intrinsics (P : Problem) (wf : WF P.d) (v : Mem) (icam : Int) (h0 : 0 ≤ icam) (h1 : icam < P.d.Nci) (k : Int) :
    HasDerivAt (fun t => intrOf P.d (moved P v t) icam k) (intrinsicsAt P.d v zeroP icam k) 0 := by
  unfold moved
  simp only [← intrinsics_unpacked P.d wf _ P.seed icam h0 h1]
  exact intrinsics_deriv P.d P.seed (fun j => state_deriv P v j) icam k

/-- **C94**: the experiment can be made: for the lenses that are unprojected directly, any motion of the calibration and of the pixels moves the point -/
theorem point_moves (P : Problem) (hv : P.Valid) (hd : (direct P.d.lens).isSome) (method : Method) (stabilize : Bool) (s : Slice) (hs : PairFrom P s) (okv : ViewOk method s) (okf : BoardsOk P) (f : Full)
    (hf : gradFull method s = some f) (F : Cols) (hF : dpDb P s f stabilize = some F) (v : Mem) (e : Nat → Nat → ℝ) : ∃ δ, PointMoves P method stabilize s v e δ := by
  obtain ⟨func, hfunc⟩ := Option.isSome_iff_exists.1 hd
  obtain ⟨hg0, hg1, -⟩ := gradFull_some method s f hf
  have l0 := okv.lens0 _ hg0
  have l1 := okv.lens1 _ hg1
  have m0 := moved_zero P hv.wf v
  have L0 := direct_ray s.m0 func (by rw [hs.m0.lens]; exact hfunc) s.q0 (e 0) (fun t => intrOf P.d (moved P v t) s.m0.icamI) _ (moved_intrinsics P hv.wf v _ hs.m0.range.1 hs.m0.range.2) (by rw [m0, hs.m0.intr]) l0.2.1 l0.2.2.1
  have L1 := direct_ray s.m1 func (by rw [hs.m1.lens]; exact hfunc) s.q1 (e 1) (fun t => intrOf P.d (moved P v t) s.m1.icamI) _ (moved_intrinsics P hv.wf v _ hs.m1.range.1 hs.m1.range.2) (by rw [m0, hs.m1.intr]) l1.2.1 l1.2.2.1
  obtain ⟨g0, h0, s0⟩ := L0.start
  obtain ⟨g1, h1, s1⟩ := L1.start
  obtain rfl : g0 = f.g0 := by rw [hg0] at h0; exact (Option.some.inj (Option.some.inj h0)).symm
  obtain rfl : g1 = f.g1 := by rw [hg1] at h1; exact (Option.some.inj (Option.some.inj h1)).symm
  obtain ⟨w0, hw0⟩ := L0.smooth
  obtain ⟨w1, hw1⟩ := L1.smooth
  exact ⟨_, _, _, L0, L1, (tracked_deriv P hv s hs.m0 hs.m1 hs.different method f hf stabilize F hF l0 l1 hs.rotations okf (okv.found _ _ hg0 hg1) v _ _ _ _ (shifted_deriv s.q0 (e 0))
    (shifted_deriv s.q1 (e 1)) _ _ w0 w1 s0 s1 hw0 hw1 L0.ray L1.ray).2⟩

end Mrcal.TriPy
