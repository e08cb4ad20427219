import Verif.Props.TriPyCov
/-
C94: `mrcal.triangulate()`: the points and the covariances that it reports
-/
namespace Mrcal.TriPy
open Mrcal Mrcal.Pose Mrcal.Tri Mrcal.AD Mrcal.Callback Mrcal.Pack Mrcal.StateLayout Mrcal.Propagate Mrcal.Uncertainty Mrcal.ProjUnc Mrcal.UnprojectPy Matrix MeasureTheory

/-! ### specification -/

/-- **Specification**: what's in the returned tuple -/
def Ret.points : Ret → List P3
  | .point p => p
  | .calibration p _ => p
  | .observation p _ => p
  | .all p _ _ _ => p
def Ret.varCalibration : Ret → Option (Nat → Nat → ℝ)
  | .calibration _ V => some V
  | .all _ V _ _ => some V
  | _ => none
def Ret.varObservation : Ret → Option (List (Nat → Nat → ℝ))
  | .observation _ V => some V
  | .all _ _ V _ => some V
  | _ => none
def Ret.varJoint : Ret → Option (Nat → Nat → ℝ)
  | .all _ _ _ V => some V
  | _ => none

/-- **Specification**: the calibration is repeated with different noise in its observations, and solved to first order -/
structure Recalibrated {Ω : Type} [MeasurableSpace Ω] (P : Problem) (σ : ℝ) (μ : Measure Ω) (noise : Ω → Nat → ℝ) (step : Ω → Mem) : Prop where
  solved : ∀ out, optimizerCallback (P.ctx (bPacked P)) = some out → IsOptimum out (fun _ => 0) fun _ => 0
  white : WhiteNoise μ noise (numObserved (P.ctx (bPacked P))) σ
  redone : ∀ out, optimizerCallback (P.ctx (bPacked P)) = some out → ∀ ω, IsOptimum out (noise ω) (step ω)

/-- **Specification**: the rotations of the two cameras, when only the observations have noise -/
def RotationsOk (s : Slice) : Prop := Turned (fun _ => s.m0.rt) fun _ => s.m1.rt

/-! ### taking the function apart -/

theorem slice_full {method : Method} {stabilize : Bool} {P : Problem} {s : Slice} {r : Prop1} (h : propagateSlice method stabilize (some P) s = some r) :
    ∃ f F, gradFull method s = some f ∧ dpDb P s f stabilize = some F ∧ r = (f.c.p, f.dq, some F) := by
  unfold propagateSlice at h
  simp only at h
  obtain ⟨f, hf, h⟩ := Option.bind_eq_some_iff.1 h
  obtain ⟨F, hF, h⟩ := Option.map_eq_some_iff.1 h
  exact ⟨f, F, hf, hF, h.symm⟩

theorem slice_any {method : Method} {stabilize : Bool} {inputs : Option Problem} {s : Slice} {r : Prop1} (h : propagateSlice method stabilize inputs s = some r) :
    ∃ f, gradFull method s = some f ∧ r.1 = f.c.p ∧ r.2.1 = f.dq := by
  cases inputs with
  | some P =>
    obtain ⟨f, F, hf, -, rfl⟩ := slice_full h
    exact ⟨f, hf, rfl, rfl⟩
  | none =>
    unfold propagateSlice at h
    simp only at h
    obtain ⟨r', hr, h⟩ := Option.map_eq_some_iff.1 h
    obtain ⟨f, hf, rfl⟩ := gradSimple_some method s r' hr
    subst h
    exact ⟨f, hf, rfl, rfl⟩

/-- the noisy path -/
theorem noisy_some {C : Cholmod} {eigsh : Eigsh} {slices : List Slice} {qc qo : Option ℝ} {corr : ℝ} {method : Method} {stabilize : Bool} {r : Ret}
    (h : noisy C eigsh slices qc qo corr method stabilize = some r) :
    ∃ inputs results, (((qc ≠ none ∧ qc ≠ some 0) ∧ ∃ P, inputsOf slices = some P ∧ inputs = some P) ∨ (¬ (qc ≠ none ∧ qc ≠ some 0) ∧ inputs = none)) ∧
      slices.mapM (propagateSlice method stabilize inputs) = some results ∧ varCal C eigsh qc inputs results = some r.varCalibration ∧
      r.points = results.map (fun r => r.1) ∧ r.varObservation = qo.map (fun σ => results.map fun r => varObs r.2.1 (varQ σ corr)) ∧
      r.varJoint = (r.varCalibration.bind fun Vc => r.varObservation.map fun Vo => joint Vc Vo) := by
  unfold noisy at h
  obtain ⟨inputs, hin, h⟩ := Option.bind_eq_some_iff.1 h
  obtain ⟨results, hres, h⟩ := Option.bind_eq_some_iff.1 h
  obtain ⟨vcal, hcal, h⟩ := Option.bind_eq_some_iff.1 h
  have hin' : (((qc ≠ none ∧ qc ≠ some 0) ∧ ∃ P, inputsOf slices = some P ∧ inputs = some P) ∨ (¬ (qc ≠ none ∧ qc ≠ some 0) ∧ inputs = none)) := by
    by_cases hq : qc ≠ none ∧ qc ≠ some 0
    · rw [if_pos hq] at hin
      obtain ⟨P, hP, rfl⟩ := Option.map_eq_some_iff.1 hin
      exact Or.inl ⟨hq, P, hP, rfl⟩
    · rw [if_neg hq] at hin
      exact Or.inr ⟨hq, (Option.some.inj hin).symm⟩
  refine ⟨inputs, results, hin', hres, ?_⟩
  cases vcal with
  | none =>
    cases qo with
    | none => simp at h
    | some σ =>
      simp only [Option.map_some, Option.some.injEq] at h
      subst h
      exact ⟨hcal, rfl, rfl, rfl⟩
  | some Vc =>
    cases qo with
    | none =>
      simp only [Option.map_none, Option.some.injEq] at h
      subst h
      exact ⟨hcal, rfl, rfl, rfl⟩
    | some σ =>
      simp only [Option.map_some, Option.some.injEq] at h
      subst h
      exact ⟨hcal, rfl, rfl, rfl⟩

theorem varCal_some {C : Cholmod} {eigsh : Eigsh} {σ : ℝ} (hσ : 0 < σ) {P : Problem} {results : List Prop1} {x : Option (Nat → Nat → ℝ)} (h : varCal C eigsh (some σ) (some P) results = some x) :
    ∃ V, x = some V ∧ propagate C eigsh "covariance" (P.ctx (bPacked P)) (3 * results.length) (flatDb (numStates P.d).toNat (results.filterMap fun r => r.2.2)) (some σ) = some (.matrix V) := by
  unfold varCal at h
  simp only [Option.filter, decide_eq_true_eq, if_pos hσ] at h
  split at h
  · rename_i V hV
    exact ⟨V, (Option.some.inj h).symm, hV⟩
  · simp at h

theorem filter_all {method : Method} {stabilize : Bool} {P : Problem} : ∀ {slices : List Slice} {results : List Prop1}, List.Forall₂ (fun s r => propagateSlice method stabilize (some P) s = some r) slices results →
    List.Forall₂ (fun s F => ∃ f, gradFull method s = some f ∧ dpDb P s f stabilize = some F) slices (results.filterMap fun r => r.2.2) := by
  intro slices results h
  induction h with
  | nil => exact .nil
  | cons h _ ih =>
    obtain ⟨f, F, hf, hF, rfl⟩ := slice_full h
    rw [List.filterMap_cons_some (f := fun r : Prop1 => r.2.2) (a := (f.c.p, f.dq, some F)) (b := F) rfl]
    exact .cons ⟨f, hf, hF⟩ ih

/-- when anything but the points is to be computed -/
theorem triangulate_noisy {C : Cholmod} {eigsh : Eigsh} {slices : List Slice} {qc qo : Option ℝ} {corr : ℝ} {method : Method} {stabilize : Bool} {r : Ret}
    (h : triangulate C eigsh slices qc qo corr method stabilize = some r) (hn : ¬ ((qc = none ∨ qc = some 0) ∧ (qo = none ∨ qo = some 0))) :
    noisy C eigsh slices qc qo corr method stabilize = some r := by
  unfold triangulate at h
  by_cases hneg : ∃ s, qo = some s ∧ s < 0
  · rw [if_pos hneg] at h; simp at h
  · rwa [if_neg hneg, if_neg hn] at h

/-! ### what's returned -/

/-- **C94** (what's returned). The noise that's asked for determines what's returned: "if q_calibration_stdev is None: Var_p_calibration isn't returned"; similarly for q_observation_stdev. Var_p_joint is returned if both
are given. There's a point and a (3,3) matrix for each observation -/
theorem returned (C : Cholmod) (eigsh : Eigsh) (slices : List Slice) (qc qo : Option ℝ) (corr : ℝ) (method : Method) (stabilize : Bool) (r : Ret) (h : triangulate C eigsh slices qc qo corr method stabilize = some r) :
    (r.varCalibration.isSome ↔ qc.isSome) ∧ (r.varObservation.isSome ↔ qo.isSome) ∧ (r.varJoint.isSome ↔ qc.isSome ∧ qo.isSome) ∧ r.points.length = slices.length ∧
      (∀ V, r.varObservation = some V → V.length = slices.length) ∧ (∀ σ, qo = some σ → 0 ≤ σ) := by
  have hneg : ∀ σ, qo = some σ → 0 ≤ σ := by
    intro σ hσ
    by_contra hc
    unfold triangulate at h
    rw [if_pos ⟨σ, hσ, by linarith⟩] at h
    simp at h
  by_cases hn : (qc = none ∨ qc = some 0) ∧ (qo = none ∨ qo = some 0)
  · unfold triangulate at h
    rw [if_neg (by rintro ⟨s, hs, hs'⟩; have := hneg s hs; linarith), if_pos hn] at h
    unfold noiseless at h
    obtain ⟨p, hp, h⟩ := Option.map_eq_some_iff.1 h
    have hl := (mapM_forall₂ _ _ hp).length_eq
    have five : (r.varCalibration.isSome ↔ qc.isSome) ∧ (r.varObservation.isSome ↔ qo.isSome) ∧ (r.varJoint.isSome ↔ qc.isSome ∧ qo.isSome) ∧ r.points.length = slices.length ∧
        (∀ V, r.varObservation = some V → V.length = slices.length) := by
      cases qc <;> cases qo <;> simp only at h <;> subst h <;> simp [Ret.varCalibration, Ret.varObservation, Ret.varJoint, Ret.points, hl]
    exact ⟨five.1, five.2.1, five.2.2.1, five.2.2.2.1, five.2.2.2.2, hneg⟩
  · obtain ⟨inputs, results, hin, hres, hcal, hp, hobs, hj⟩ := noisy_some (triangulate_noisy h hn)
    have hl := (mapM_forall₂ _ _ hres).length_eq
    have hc : r.varCalibration.isSome ↔ qc.isSome := by
      rcases hin with ⟨⟨hq, hq'⟩, P, hP, rfl⟩ | ⟨hq, rfl⟩
      · have : ∃ V, r.varCalibration = some V := by
          unfold varCal at hcal
          simp only at hcal
          split at hcal
          · exact ⟨_, (Option.some.inj hcal).symm⟩
          · simp at hcal
        obtain ⟨V, hV⟩ := this
        rw [hV]
        cases qc with
        | none => exact absurd rfl hq
        | some q => simp
      · unfold varCal at hcal
        simp only [Option.some.injEq] at hcal
        rw [← hcal]
        by_cases h0 : qc = some 0
        · simp [h0]
        · have : qc = none := by
            by_contra hc
            exact hq ⟨hc, h0⟩
          simp [this]
    have ho : r.varObservation.isSome ↔ qo.isSome := by rw [hobs]; cases qo <;> simp
    refine ⟨hc, ho, ?_, ?_, ?_, hneg⟩
    · rw [hj, ← hc, ← ho]
      cases r.varCalibration <;> cases r.varObservation <;> simp
    · rw [hp, List.length_map, hl]
    · intro V hV
      rw [hobs] at hV
      cases qo with
      | none => simp at hV
      | some σ =>
        simp only [Option.map_some, Option.some.injEq] at hV
        rw [← hV, List.length_map, hl]

/-- **C94** (no noise). "If a stdev is 0, then the corresponding covariance is 0", without looking at the optimization inputs -/
theorem zero_noise (C : Cholmod) (eigsh : Eigsh) (slices : List Slice) (qo : Option ℝ) (corr : ℝ) (method : Method) (stabilize : Bool) (r : Ret) (h : triangulate C eigsh slices (some 0) qo corr method stabilize = some r) :
    (∀ V, r.varCalibration = some V → ∀ i j, V i j = 0) ∧ (qo = some 0 → ∀ V, r.varObservation = some V → ∀ W ∈ V, ∀ i j, W i j = 0) ∧ (qo = some 0 → ∀ V, r.varJoint = some V → ∀ i j, V i j = 0) := by
  by_cases hn : qo = none ∨ qo = some 0
  · unfold triangulate at h
    rw [if_neg (by rintro ⟨s, hs, hs'⟩; rcases hn with hn | hn <;> rw [hn] at hs <;> simp at hs; linarith), if_pos ⟨Or.inr rfl, hn⟩] at h
    unfold noiseless at h
    obtain ⟨p, hp, h⟩ := Option.map_eq_some_iff.1 h
    rcases hn with hn | hn <;> subst hn <;> simp only at h <;> subst h <;> simp [Ret.varCalibration, Ret.varObservation, Ret.varJoint]
  · obtain ⟨inputs, results, hin, hres, hcal, hp, hobs, hj⟩ := noisy_some (triangulate_noisy h (fun hh => hn hh.2))
    refine ⟨?_, fun hh => absurd (Or.inr hh) hn, fun hh => absurd (Or.inr hh) hn⟩
    rcases hin with ⟨⟨-, hq'⟩, -⟩ | ⟨-, rfl⟩
    · exact absurd rfl hq'
    · unfold varCal at hcal
      simp only [if_true, Option.some.injEq] at hcal
      intro V hV i j
      rw [← hcal] at hV
      rw [← Option.some.inj hV]

/-! ### the covariances -/

/-- **C94** (calibration noise). The calibration is repeated with different noise in its observations. The same pixels are triangulated. Then Var_p_calibration is the covariance of all the coordinates of all the points (with the
stabilization, if it's asked for); different points are correlated -/
theorem calibration_covariance (C : Cholmod) (hC : CholmodOk C) (eigsh : Eigsh) (slices : List Slice) (σ : ℝ) (hσ : 0 < σ) (qo : Option ℝ) (corr : ℝ) (method : Method) (stabilize : Bool) (r : Ret)
    (h : triangulate C eigsh slices (some σ) qo corr method stabilize = some r) (P : Problem) (hin : inputsOf slices = some P) (hP : Solved P) (okf : BoardsOk P)
    (hs : ∀ s ∈ slices, PairFrom P s ∧ ViewOk method s)
    {Ω : Type} [MeasurableSpace Ω] (μ : Measure Ω) (noise : Ω → Nat → ℝ) (step : Ω → Mem) (hr : Recalibrated P σ μ noise step) (δ : Ω → Nat → P3)
    (hδ : ∀ ω i s, slices[i]? = some s → PointMoves P method stabilize s (step ω) (fun _ _ => 0) (δ ω i)) :
    ∃ V, r.varCalibration = some V ∧ ∀ i j a b, i < slices.length → j < slices.length → a < 3 → b < 3 →
      Integrable (fun ω => pick3 (δ ω i) a * pick3 (δ ω j) b) μ ∧ ∫ ω, pick3 (δ ω i) a * pick3 (δ ω j) b ∂μ = V (3 * i + a) (3 * j + b) := by
  obtain ⟨inputs, results, hin', hres, hcal, hp, hobs, hj⟩ := noisy_some (triangulate_noisy h (by simp [hσ.ne']))
  rcases hin' with ⟨-, P', hP', rfl⟩ | ⟨hq, -⟩
  swap
  · exact absurd ⟨by simp, by simp [hσ.ne']⟩ hq
  obtain rfl := Option.some.inj (hin.symm.trans hP')
  obtain ⟨V, hV, hpr⟩ := varCal_some hσ hcal
  refine ⟨V, hV, fun i j a b hi hj' ha hb => ?_⟩
  have hall := mapM_forall₂ _ _ hres
  have hl := hall.length_eq
  have hcols := filter_all hall
  obtain ⟨cols, hc⟩ : ∃ cols, cols = results.filterMap fun r => r.2.2 := ⟨_, rfl⟩
  rw [← hc] at hcols hpr
  have hlc := hcols.length_eq
  obtain ⟨out, ho⟩ := callback_some hpr
  have ok := hP.ctx (bPacked P)
  have idx := problem_idx P hP.valid (bPacked P)
  have key := covariance_correct C hC eigsh _ ok idx out ho (hr.solved out ho) (3 * results.length) _ σ V hpr μ noise hr.white step (hr.redone out ho) (3 * i + a) (3 * j + b) (by omega) (by omega)
  have e : ∀ i a, i < slices.length → a < 3 → ∀ ω, deltaF (P.ctx (bPacked P)).d (flatDb (numStates P.d).toNat cols) (step ω) (3 * i + a) = pick3 (δ ω i) a := by
    intro i a hi ha ω
    refine (flat_row P.d cols (step ω) i a (by omega) ha).trans ?_
    obtain ⟨f, hf, hF⟩ := (List.forall₂_iff_get.1 hcols).2 i hi (by omega)
    rw [List.get_eq_getElem] at hf hF
    rw [List.get_eq_getElem] at hF
    have hm := hs _ (List.getElem_mem hi)
    rw [full_moves P hP.valid method stabilize _ hm.1 hm.2 okf f hf _ hF (step ω) _ (δ ω i) (hδ ω i _ (List.getElem?_eq_getElem hi))]
    have z : qDot f.dq ⟨0, 0⟩ ⟨0, 0⟩ = ⟨0, 0, 0⟩ := by unfold qDot; simp
    rw [z, addP_zero]
  simp only [e i a hi ha, e j b hj' hb] at key
  exact key

/-- **C94** (observation noise). The calibration is fixed. The observed pixels have the noise that's documented. Then Var_p_observation is the covariance of each point, and different points aren't correlated. The optimization
inputs don't matter -/
theorem observation_covariance (C : Cholmod) (eigsh : Eigsh) (slices : List Slice) (qc : Option ℝ) (σ ρ : ℝ) (hσ : σ ≠ 0) (method : Method) (stabilize : Bool) (r : Ret)
    (h : triangulate C eigsh slices qc (some σ) ρ method stabilize = some r) (hs : ∀ s ∈ slices, RotationsOk s ∧ ViewOk method s)
    {Ω : Type} [MeasurableSpace Ω] (μ : Measure Ω) (ε : Ω → Nat → Nat → Nat → ℝ) (hε : PixelNoise μ ε slices.length σ ρ) (δ : Ω → Nat → P3)
    (hδ : ∀ ω i s, slices[i]? = some s → ObservationMoves method s (ε ω i) (δ ω i)) :
    ∃ V, r.varObservation = some V ∧ V.length = slices.length ∧ ∀ i j a b, i < slices.length → j < slices.length →
      Integrable (fun ω => pick3 (δ ω i) a * pick3 (δ ω j) b) μ ∧ ∫ ω, pick3 (δ ω i) a * pick3 (δ ω j) b ∂μ = if i = j then (V.getD i fun _ _ => 0) a b else 0 := by
  obtain ⟨inputs, results, -, hres, -, -, hobs, -⟩ := noisy_some (triangulate_noisy h (by simp [hσ]))
  have hall := mapM_forall₂ _ _ hres
  have hl := hall.length_eq
  refine ⟨_, hobs, by rw [List.length_map, hl], fun i j a b hi hj => ?_⟩
  have get : ∀ i (hi : i < slices.length), ∃ f, gradFull method slices[i] = some f ∧ (∀ ω, δ ω i = qDot f.dq ⟨ε ω i 0 0, ε ω i 0 1⟩ ⟨ε ω i 1 0, ε ω i 1 1⟩) ∧ (results[i]'(by omega)).2.1 = f.dq := by
    intro i hi
    have := (List.forall₂_iff_get.1 hall).2 i hi (by omega)
    rw [List.get_eq_getElem, List.get_eq_getElem] at this
    obtain ⟨f, hf, -, e⟩ := slice_any this
    have hm := hs _ (List.getElem_mem hi)
    exact ⟨f, hf, fun ω => (simple_moves method _ hm.2 hm.1 f hf _ _ (hδ ω i _ (List.getElem?_eq_getElem hi))).1, e⟩
  obtain ⟨f, hf, ef, eq⟩ := get i hi
  obtain ⟨g, hg, eg, -⟩ := get j hj
  have key := pixel_moment hε f.dq g.dq i j a b hi hj
  simp only [ef, eg]
  refine ⟨key.1, key.2.trans ?_⟩
  by_cases hij : i = j
  · subst hij
    obtain rfl := Option.some.inj (hf.symm.trans hg)
    rw [if_pos rfl, if_pos rfl, List.getD_eq_getElem _ _ (by rw [List.length_map]; omega), List.getElem_map, eq]
    rfl
  · rw [if_neg hij, if_neg hij]

/-- **C94** (everything). Both: the calibration is repeated, and the observed pixels have noise; these are not correlated. Then Var_p_joint is the covariance of all the coordinates of all the points -/
theorem joint_covariance (C : Cholmod) (hC : CholmodOk C) (eigsh : Eigsh) (slices : List Slice) (σc : ℝ) (hσ : 0 < σc) (σo ρ : ℝ) (method : Method) (stabilize : Bool) (r : Ret)
    (h : triangulate C eigsh slices (some σc) (some σo) ρ method stabilize = some r) (P : Problem) (hin : inputsOf slices = some P) (hP : Solved P) (okf : BoardsOk P)
    (hs : ∀ s ∈ slices, PairFrom P s ∧ ViewOk method s)
    {Ω : Type} [MeasurableSpace Ω] (μ : Measure Ω) (noise : Ω → Nat → ℝ) (step : Ω → Mem) (hr : Recalibrated P σc μ noise step) (ε : Ω → Nat → Nat → Nat → ℝ) (hε : PixelNoise μ ε slices.length σo ρ)
    (hind : ∀ m i a x, Integrable (fun ω => noise ω m * ε ω i a x) μ ∧ ∫ ω, noise ω m * ε ω i a x ∂μ = 0) (δ : Ω → Nat → P3)
    (hδ : ∀ ω i s, slices[i]? = some s → PointMoves P method stabilize s (step ω) (ε ω i) (δ ω i)) :
    ∃ V, r.varJoint = some V ∧ ∀ i j a b, i < slices.length → j < slices.length → a < 3 → b < 3 →
      Integrable (fun ω => pick3 (δ ω i) a * pick3 (δ ω j) b) μ ∧ ∫ ω, pick3 (δ ω i) a * pick3 (δ ω j) b ∂μ = V (3 * i + a) (3 * j + b) := by
  obtain ⟨inputs, results, hin', hres, hcal, hp, hobs, hj⟩ := noisy_some (triangulate_noisy h (by simp [hσ.ne']))
  rcases hin' with ⟨-, P', hP', rfl⟩ | ⟨hq, -⟩
  swap
  · exact absurd ⟨by simp, by simp [hσ.ne']⟩ hq
  obtain rfl := Option.some.inj (hin.symm.trans hP')
  obtain ⟨V, hV, hpr⟩ := varCal_some hσ hcal
  rw [hV, hobs] at hj
  simp only [Option.map_some, Option.bind_some] at hj
  refine ⟨_, hj, fun i j a b hi hj' ha hb => ?_⟩
  have hall := mapM_forall₂ _ _ hres
  have hl := hall.length_eq
  have hcols := filter_all hall
  obtain ⟨cols, hc⟩ : ∃ cols, cols = results.filterMap fun r => r.2.2 := ⟨_, rfl⟩
  rw [← hc] at hcols hpr
  have hlc := hcols.length_eq
  obtain ⟨out, ho⟩ := callback_some hpr
  have ok := hP.ctx (bPacked P)
  have idx := problem_idx P hP.valid (bPacked P)
  obtain ⟨-, h0, -, hrank, -⟩ := (propagate_succeeds_iff C hC eigsh "covariance" _ ok idx out ho (3 * results.length) (by omega) _ (some σc) (by intro h; simp at h)).1 ⟨_, hpr⟩
  have key := covariance_correct C hC eigsh _ ok idx out ho (hr.solved out ho) (3 * results.length) _ σc V hpr μ noise hr.white step (hr.redone out ho) (3 * i + a) (3 * j + b) (by omega) (by omega)
  -- the two parts of the motion
  obtain ⟨A, hA⟩ : ∃ A : Nat → Ω → ℝ, A = fun row ω => deltaF (P.ctx (bPacked P)).d (flatDb (numStates P.d).toNat cols) (step ω) row := ⟨_, rfl⟩
  have get : ∀ i (hi : i < slices.length), ∃ f, gradFull method slices[i] = some f ∧ (results[i]'(by omega)).2.1 = f.dq ∧
      ∀ a < 3, ∀ ω, pick3 (δ ω i) a = A (3 * i + a) ω + pick3 (qDot f.dq ⟨ε ω i 0 0, ε ω i 0 1⟩ ⟨ε ω i 1 0, ε ω i 1 1⟩) a := by
    intro i hi
    obtain ⟨f, hf, hF⟩ := (List.forall₂_iff_get.1 hcols).2 i hi (by omega)
    have hres1 := (List.forall₂_iff_get.1 hall).2 i hi (by omega)
    simp only [List.get_eq_getElem] at hf hF hres1
    obtain ⟨f', hf', -, e⟩ := slice_any hres1
    obtain rfl := Option.some.inj (hf.symm.trans hf')
    have hm := hs _ (List.getElem_mem hi)
    refine ⟨f, hf, e, fun a ha ω => ?_⟩
    rw [full_moves P hP.valid method stabilize _ hm.1 hm.2 okf f hf _ hF (step ω) _ (δ ω i) (hδ ω i _ (List.getElem?_eq_getElem hi)), hA]
    refine Eq.trans ?_ (congrArg (· + _) (flat_row P.d cols (step ω) i a (by omega) ha).symm)
    interval_cases a <;> rfl
  obtain ⟨f, hf, eqf, ef⟩ := get i hi
  obtain ⟨g, hg, eqg, eg⟩ := get j hj'
  simp only [ef a ha, eg b hb]
  have kq := pixel_moment hε f.dq g.dq i j a b hi hj'
  have hAA : Integrable (fun ω => A (3 * i + a) ω * A (3 * j + b) ω) μ ∧ ∫ ω, A (3 * i + a) ω * A (3 * j + b) ω ∂μ = V (3 * i + a) (3 * j + b) := by rw [hA]; exact key
  -- the calibration doesn't know about the observations
  have cross : ∀ (row k : Nat) (dq : Nat → P3) (c : Nat), Integrable (fun ω => A row ω * pick3 (qDot dq ⟨ε ω k 0 0, ε ω k 0 1⟩ ⟨ε ω k 1 0, ε ω k 1 1⟩) c) μ ∧
      ∫ ω, A row ω * pick3 (qDot dq ⟨ε ω k 0 0, ε ω k 0 1⟩ ⟨ε ω k 1 0, ε ω k 1 1⟩) c ∂μ = 0 := by
    intro row k dq c
    obtain ⟨z, hz⟩ := deltaF_linear _ ok idx out ho h0 hrank (hr.solved out ho) (flatDb (numStates P.d).toNat cols) row
    have e : ∀ ω, A row ω * pick3 (qDot dq ⟨ε ω k 0 0, ε ω k 0 1⟩ ⟨ε ω k 1 0, ε ω k 1 1⟩) c = ∑ m, ∑ l ∈ Finset.range 4, (z m * pick3 (dq l) c) * (noise ω m * ε ω k (l / 2) (l % 2)) := by
      intro ω
      rw [hA]
      simp only
      rw [hz _ _ (hr.redone out ho ω), qDot_sum dq (ε ω k), Finset.sum_mul_sum]
      exact Finset.sum_congr rfl fun m _ => Finset.sum_congr rfl fun l _ => by ring
    simp only [e]
    refine ⟨integrable_finsetSum _ fun m _ => integrable_finsetSum _ fun l _ => (hind _ _ _ _).1.const_mul _, ?_⟩
    rw [integral_finsetSum _ fun (m : Fin _) _ => integrable_finsetSum _ fun l _ => (hind _ _ _ _).1.const_mul _]
    refine Finset.sum_eq_zero fun m _ => ?_
    rw [integral_finsetSum _ fun l _ => (hind _ _ _ _).1.const_mul _]
    refine Finset.sum_eq_zero fun l _ => ?_
    rw [integral_const_mul, (hind _ _ _ _).2, mul_zero]
  obtain ⟨Bi, hBi⟩ : ∃ B : Ω → ℝ, B = fun ω => pick3 (qDot f.dq ⟨ε ω i 0 0, ε ω i 0 1⟩ ⟨ε ω i 1 0, ε ω i 1 1⟩) a := ⟨_, rfl⟩
  obtain ⟨Bj, hBj⟩ : ∃ B : Ω → ℝ, B = fun ω => pick3 (qDot g.dq ⟨ε ω j 0 0, ε ω j 0 1⟩ ⟨ε ω j 1 0, ε ω j 1 1⟩) b := ⟨_, rfl⟩
  have c1 := cross (3 * i + a) j g.dq b
  have c2 := cross (3 * j + b) i f.dq a
  have f1 : ∀ ω, pick3 (qDot f.dq ⟨ε ω i 0 0, ε ω i 0 1⟩ ⟨ε ω i 1 0, ε ω i 1 1⟩) a = Bi ω := fun ω => by rw [hBi]
  have f2 : ∀ ω, pick3 (qDot g.dq ⟨ε ω j 0 0, ε ω j 0 1⟩ ⟨ε ω j 1 0, ε ω j 1 1⟩) b = Bj ω := fun ω => by rw [hBj]
  simp only [f1, f2] at c1 c2 kq ⊢
  have exp : (fun ω => (A (3 * i + a) ω + Bi ω) * (A (3 * j + b) ω + Bj ω)) = fun ω => (A (3 * i + a) ω * A (3 * j + b) ω + A (3 * i + a) ω * Bj ω) + (A (3 * j + b) ω * Bi ω + Bi ω * Bj ω) := by
    funext ω; ring
  rw [exp]
  refine ⟨(hAA.1.add c1.1).add (c2.1.add kq.1), ?_⟩
  rw [integral_add (f := fun ω => A (3 * i + a) ω * A (3 * j + b) ω + A (3 * i + a) ω * Bj ω) (g := fun ω => A (3 * j + b) ω * Bi ω + Bi ω * Bj ω) (hAA.1.add c1.1) (c2.1.add kq.1),
    integral_add hAA.1 c1.1, integral_add c2.1 kq.1, hAA.2, c1.2, c2.2, kq.2]
  unfold joint
  have d1 : (3 * i + a) / 3 = i := by omega
  have d2 : (3 * j + b) / 3 = j := by omega
  have d3 : (3 * i + a) % 3 = a := by omega
  have d4 : (3 * j + b) % 3 = b := by omega
  rw [d1, d2, d3, d4]
  by_cases hij : i = j
  · subst hij
    obtain rfl := Option.some.inj (hf.symm.trans hg)
    rw [if_pos rfl, if_pos rfl, List.getD_eq_getElem _ _ (by rw [List.length_map]; omega), List.getElem_map, eqf]
    unfold varObs
    ring
  · rw [if_neg hij, if_neg hij]
    ring

end Mrcal.TriPy
