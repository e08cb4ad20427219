import Verif.Props.ProjUncProps
/-
C81: projection_uncertainty(): the gradient is the derivative of the documented experiment; the reported covariance is the covariance of the pixel
-/
namespace Mrcal.ProjUnc
open Mrcal Mrcal.Pose Mrcal.Callback Mrcal.Pack Mrcal.StateLayout Mrcal.Propagate Mrcal.Uncertainty
open Mrcal.Tri (Terminated)
open MeasureTheory Matrix

/-! ### what the optimizer is given makes sense -/

theorem ivar_ok (L : Lens) (hl : Cam.ValidLens L) (intr : Int → ℝ) (p : P3) (o : Project.Out) : IvarOk L (mkProj L intr p o) := by
  unfold IvarOk
  cases L with
  | splined order Nx Ny fov =>
    simp only [mkProj]
    unfold splineIvar0
    rcases hl with ⟨rfl, h1, h2⟩ | ⟨rfl, h1, h2⟩
    · rw [if_neg (by norm_num)]
      have wx := Spline.quad_win Nx (by exact_mod_cast h1) (Spline.gridCoord Nx ((Spline.segmentsPerU 2 Nx Ny fov).getD 0) (Spline.stereoU p).x)
      have wy := Spline.quad_win Ny (by exact_mod_cast h2) (Spline.gridCoord Ny ((Spline.segmentsPerU 2 Nx Ny fov).getD 0) (Spline.stereoU p).y)
      refine ⟨_ - 1, _ - 1, ?_, ?_, ?_, ?_, rfl⟩
      · have := wx.1; omega
      · have := wx.le_hi; push_cast; omega
      · have := wy.1; omega
      · have := wy.le_hi; push_cast; omega
    · rw [if_pos rfl]
      have wx := Spline.cubic_win Nx (by exact_mod_cast h1) (Spline.gridCoord Nx ((Spline.segmentsPerU 3 Nx Ny fov).getD 0) (Spline.stereoU p).x)
      have wy := Spline.cubic_win Ny (by exact_mod_cast h2) (Spline.gridCoord Ny ((Spline.segmentsPerU 3 Nx Ny fov).getD 0) (Spline.stereoU p).y)
      refine ⟨_ - 1, _ - 1, ?_, ?_, ?_, ?_, rfl⟩
      · have := wx.1; omega
      · have := wx.le_hi; push_cast; omega
      · have := wy.1; omega
      · have := wy.le_hi; push_cast; omega
  | _ => trivial

theorem problem_idx (P : Problem) (hv : P.Valid) (b : Mem) : IdxOk (P.ctx b) where
  wf := hv.wf
  boards := hv.boards
  points := hv.points
  tri := hv.tri
  projBoard := fun _ _ => ivar_ok _ hv.lens _ _ _
  projPoint := fun _ => ivar_ok _ hv.lens _ _ _
  grid := by
    intro order Nx Ny fov e
    have h := hv.lens
    change P.d.lens = _ at e
    rw [e] at h
    rcases h with ⟨rfl, h1, h2⟩ | ⟨rfl, h1, h2⟩ <;> exact ⟨by omega, by omega⟩

/-- **Specification**: a problem that the optimizer accepts -/
structure Solved (P : Problem) : Prop where
  valid : P.Valid
  /-- the number of board observations -/
  nob : P.d.Nob = P.boards.length
  /-- each set of triangulated observations ends: C09 -/
  term : Terminated P.tri
  /-- triangulated points can be used only if the intrinsics are fixed, and the cameras move -/
  triSel : P.tri ≠ [] → P.d.sel.core = false ∧ P.d.sel.distortions = false ∧ P.d.sel.extrinsics = true

theorem Solved.ctx {P : Problem} (h : Solved P) (b : Mem) : CtxOk (P.ctx b) where
  nci := h.valid.wf.nci
  nob := h.nob
  term := h.term
  triSel := h.triSel

/-! ### the gradient -/

theorem moves_unique {P : Problem} {icam : Int} {v : Mem} {q : ℝ → P3} {δ δ' : Nat → ℝ} (h : PixelMoves P icam v q δ) (h' : PixelMoves P icam v q δ') (xy : Nat) (hxy : xy < 2) : δ xy = δ' xy :=
  (h xy hxy).unique (h' xy hxy)

theorem moves_congr {P : Problem} {icam : Int} {v : Mem} {q : ℝ → P3} {δ δ' : Nat → ℝ} (h : PixelMoves P icam v q δ) (e : ∀ xy < 2, δ' xy = δ xy) : PixelMoves P icam v q δ' := by
  intro xy hxy
  rw [e xy hxy]
  exact h xy hxy

theorem grad_icam (L : Lapack) (P : Problem) (method : String) (icam : Int) (at_ : Bool) (p : P3) (F : Grad) (h : grad L P method icam at_ p = some F) : 0 ≤ icam ∧ icam < P.d.Nci := by
  unfold grad at h
  split_ifs at h with h1 h2 <;> exact h2

/-- **C81** (the gradient). The state moves in any direction v. The experiment that this method documents moves the pixel, and in exactly one way: as the gradient says. `hreg`: the lens is differentiable
at this point. `hrot`: C12 -/
theorem gradient_correct (L : Lapack) (hL : LapackOk L) (P : Problem) (hP : Solved P) (h0 : 0 < numStates P.d) (method : String) (icam : Int) (atinfinity : Bool) (p : P3)
    (hreg : Cam.LensRegular P.d.lens (intrOf P.d P.seed icam) p) (hrot : method ≠ "cross-reprojection-ccp" → PosesOk P icam)
    (F : Grad) (hF : grad L P method icam atinfinity p = some F) (v : Mem) (δ : Nat → ℝ) :
    Shift P method icam atinfinity p v δ ↔ ∀ xy < 2, δ xy = ∑ j ∈ Finset.range (numStates P.d).toNat, F xy j * (unpackVector P.d v).1 j := by
  obtain ⟨hi, hi'⟩ := grad_icam L P method icam atinfinity p F hF
  have ok := hP.ctx (bPacked P)
  have idx := problem_idx P hP.valid (bPacked P)
  change _ ↔ ∀ xy < 2, δ xy = dot P.d F v xy
  have hF' := hF
  unfold grad at hF'
  by_cases hm : method ∈ ["mean-pcam", "cross-reprojection-rrp-Jfp", "cross-reprojection-ccp"]
  swap
  · rw [if_pos hm] at hF'; exact absurd hF' (by simp)
  rw [if_neg (not_not.2 hm), if_neg (not_not.2 ⟨hi, hi'⟩)] at hF'
  simp only [List.mem_cons, List.not_mem_nil, or_false] at hm
  rcases hm with rfl | rfl | rfl
  · rw [if_neg (by decide)] at hF'
    obtain ⟨m1, cams, hcams⟩ := mean_move L P hP.valid icam hi hi' atinfinity p hreg (hrot (by decide)) F hF' v
    constructor
    · rintro (⟨h, -⟩ | ⟨h, -⟩ | ⟨-, cams, pref, pframe, a1, a2, a3, a4⟩) xy hxy
      · exact absurd h (by decide)
      · exact absurd h (by decide)
      · exact moves_unique a4 (m1 cams pref pframe a1 a2 a3) xy hxy
    · intro h
      choose pref hpref using fun e => act_exists atinfinity (camPose P.seed e) p
      choose pframe hpframe using fun e (i : Nat) => act_exists atinfinity (frameOf P.seed i) (pref e)
      exact Or.inr (Or.inr ⟨rfl, cams, pref, pframe, hcams, fun e _ => hpref e, fun e _ i _ => hpframe e i, moves_congr (m1 cams pref pframe hcams (fun e _ => hpref e) fun e _ i _ => hpframe e i) h⟩)
  · rw [if_neg (by decide)] at hF'
    obtain ⟨m1, ⟨u, hu⟩, e, he⟩ := rrp_move L hL P hP.valid ok idx h0 icam hi hi' atinfinity p hreg (hrot (by decide)) F hF' v
    constructor
    · rintro (⟨h, -⟩ | ⟨-, u, T, q, e, pref, a1, a2, a3, a4, a5, a6⟩ | ⟨h, -⟩) xy hxy
      · exact absurd h (by decide)
      · exact moves_unique a6 (m1 u T q e pref a1 a2 a3 a4 a5) xy hxy
      · exact absurd h (by decide)
    · intro h
      obtain ⟨pref, hp⟩ := act_exists atinfinity (camPose P.seed e) p
      obtain ⟨T, q, hT, hq⟩ := leaves_exists u atinfinity pref
      exact Or.inr (Or.inl ⟨rfl, u, T, q, e, pref, hu, hT, he, hp, hq, moves_congr (m1 u T q e pref hu hT he hp hq) h⟩)
  · rw [if_pos rfl] at hF'
    obtain ⟨m1, u, hu⟩ := ccp_move L hL P hP.valid.lens ok idx h0 icam hi hi' atinfinity p hreg F hF' v
    constructor
    · rintro (⟨-, u, T, q, a1, a2, a3, a4⟩ | ⟨h, -⟩ | ⟨h, -⟩) xy hxy
      · exact moves_unique a4 (m1 u T q a1 a2 a3) xy hxy
      · exact absurd h (by decide)
      · exact absurd h (by decide)
    · intro h
      obtain ⟨T, q, hT, hq⟩ := leaves_exists u atinfinity p
      exact Or.inl ⟨rfl, u, T, q, hu, hT, hq, moves_congr (m1 u T q hu hT hq) h⟩

/-! ### the reported uncertainty -/

theorem unc_some {L : Lapack} {C : Cholmod} {eigsh : Eigsh} {P : Problem} {icam : Int} {method : String} {at_ : Bool} {what : String} {σ : Option ℝ} {p : P3} {res : Res}
    (h : projectionUncertainty L C eigsh P icam method at_ what σ p = some res) : ∃ F, grad L P method icam at_ p = some F ∧
      propagate C eigsh what (P.ctx (bPacked P)) 2 (fun i => F (i / ((numStates P.d).toNat : Nat)).toNat (i % ((numStates P.d).toNat : Nat))) σ = some res := by
  unfold projectionUncertainty at h
  exact Option.bind_eq_some_iff.1 h

/-- **Specification**: what happens when the calibration is redone with new pixel noise: the problem is re-solved to first order, and the experiment of this method moves the pixel by δ -/
structure Redone {Ω : Type} [MeasurableSpace Ω] (P : Problem) (method : String) (icam : Int) (atinfinity : Bool) (p : P3) (σ : ℝ) (μ : Measure Ω) (noise : Ω → Nat → ℝ) (δ : Ω → Nat → ℝ) : Prop where
  /-- the stored solution is optimal -/
  solved : ∀ out, optimizerCallback (P.ctx (bPacked P)) = some out → IsOptimum out (fun _ => 0) fun _ => 0
  white : WhiteNoise μ noise (numObserved (P.ctx (bPacked P))) σ
  redone : ∃ step : Ω → Mem, (∀ out, optimizerCallback (P.ctx (bPacked P)) = some out → ∀ ω, IsOptimum out (noise ω) (step ω)) ∧ ∀ ω, Shift P method icam atinfinity p (step ω) (δ ω)

theorem callback_some {C : Cholmod} {eigsh : Eigsh} {c : Ctx} {N : Nat} {F : Mem} {what : String} {σ : Option ℝ} {res : Res} (h : propagate C eigsh what c N F σ = some res) :
    ∃ out, optimizerCallback c = some out := by
  unfold propagate at h
  by_cases hw : what ∈ ["covariance", "worstdirection-stdev", "rms-stdev", "_covariance-raw"]
  swap
  · rw [if_pos hw] at h; exact absurd h (by simp)
  rw [if_neg (not_not.2 hw)] at h
  simp only [Option.bind_eq_bind] at h
  obtain ⟨b, hb, h⟩ := Option.bind_eq_some_iff.1 h
  obtain ⟨o, hoo, h⟩ := Option.bind_eq_some_iff.1 h
  exact ⟨_, hoo⟩

/-- the change of the reported quantity, per noise sample -/
theorem delta_eq (L : Lapack) (hL : LapackOk L) (P : Problem) (hP : Solved P) (h0 : 0 < numStates P.d) (method : String) (icam : Int) (atinfinity : Bool) (p : P3)
    (hreg : Cam.LensRegular P.d.lens (intrOf P.d P.seed icam) p) (hrot : method ≠ "cross-reprojection-ccp" → PosesOk P icam)
    (F : Grad) (hF : grad L P method icam atinfinity p = some F) (v : Mem) (δ : Nat → ℝ) (h : Shift P method icam atinfinity p v δ) (r : Nat) (hr : r < 2) :
    deltaF P.d (fun i => F (i / ((numStates P.d).toNat : Nat)).toNat (i % ((numStates P.d).toNat : Nat))) v r = δ r := by
  rw [deltaF_flat, (gradient_correct L hL P hP h0 method icam atinfinity p hreg hrot F hF v δ).1 h r hr]
  rfl

/-- **C81** (covariance). The calibration is redone with new noise in the observed pixels, of the given standard deviation. Then the reported matrix is the covariance of the pixel -/
theorem uncertainty_covariance (L : Lapack) (hL : LapackOk L) (C : Cholmod) (hC : CholmodOk C) (eigsh : Eigsh) (P : Problem) (hP : Solved P) (method : String) (icam : Int) (atinfinity : Bool) (p : P3)
    (hreg : Cam.LensRegular P.d.lens (intrOf P.d P.seed icam) p) (hrot : method ≠ "cross-reprojection-ccp" → PosesOk P icam) (σ : ℝ) (V : Nat → Nat → ℝ)
    (h : projectionUncertainty L C eigsh P icam method atinfinity "covariance" (some σ) p = some (.matrix V))
    {Ω : Type} [MeasurableSpace Ω] (μ : Measure Ω) (noise δ : Ω → Nat → ℝ) (hr : Redone P method icam atinfinity p σ μ noise δ) (r s : Nat) (h2 : r < 2) (h2' : s < 2) :
    Integrable (fun ω => δ ω r * δ ω s) μ ∧ ∫ ω, δ ω r * δ ω s ∂μ = V r s := by
  obtain ⟨F, hF, hp⟩ := unc_some h
  obtain ⟨out, ho⟩ := callback_some hp
  have ok := hP.ctx (bPacked P)
  have idx := problem_idx P hP.valid (bPacked P)
  obtain ⟨-, h0, -⟩ := (propagate_succeeds_iff C hC eigsh "covariance" _ ok idx out ho 2 (by omega) _ (some σ) (by intro h; simp at h)).1 ⟨_, hp⟩
  obtain ⟨step, s1, s2⟩ := hr.redone
  have key := covariance_correct C hC eigsh _ ok idx out ho (hr.solved out ho) 2 _ σ V hp μ noise hr.white step (s1 out ho) r s h2 h2'
  have e : ∀ ω, ∀ r < 2, deltaF (P.ctx (bPacked P)).d (fun i => F (i / ((numStates P.d).toNat : Nat)).toNat (i % ((numStates P.d).toNat : Nat))) (step ω) r = δ ω r := fun ω r hr =>
    delta_eq L hL P hP h0 method icam atinfinity p hreg hrot F hF (step ω) (δ ω) (s2 ω) r hr
  simp only [e _ r h2, e _ s h2'] at key
  exact key

/-- **C81** (worst direction). The reported number is the largest standard deviation of the pixel, along any direction in the image -/
theorem uncertainty_worst_direction (L : Lapack) (hL : LapackOk L) (C : Cholmod) (hC : CholmodOk C) (eigsh : Eigsh) (he : EigshOk eigsh) (P : Problem) (hP : Solved P) (method : String) (icam : Int)
    (atinfinity : Bool) (p : P3) (hreg : Cam.LensRegular P.d.lens (intrOf P.d P.seed icam) p) (hrot : method ≠ "cross-reprojection-ccp" → PosesOk P icam) (σ : ℝ) (hσ : 0 ≤ σ) (w : ℝ)
    (h : projectionUncertainty L C eigsh P icam method atinfinity "worstdirection-stdev" (some σ) p = some (.number w))
    {Ω : Type} [MeasurableSpace Ω] (μ : Measure Ω) (noise δ : Ω → Nat → ℝ) (hr : Redone P method icam atinfinity p σ μ noise δ) :
    0 ≤ w ∧ (∀ ux uy : ℝ, ux ^ 2 + uy ^ 2 = 1 → ∫ ω, (ux * δ ω 0 + uy * δ ω 1) ^ 2 ∂μ ≤ w ^ 2) ∧ ∃ ux uy : ℝ, ux ^ 2 + uy ^ 2 = 1 ∧ ∫ ω, (ux * δ ω 0 + uy * δ ω 1) ^ 2 ∂μ = w ^ 2 := by
  obtain ⟨F, hF, hp⟩ := unc_some h
  obtain ⟨out, ho⟩ := callback_some hp
  have ok := hP.ctx (bPacked P)
  have idx := problem_idx P hP.valid (bPacked P)
  obtain ⟨step, s1, s2⟩ := hr.redone
  have hsome : ∃ r, propagate C (fun _ _ => some 0) "worstdirection-stdev" (P.ctx (bPacked P)) 2 (fun i => F (i / ((numStates P.d).toNat : Nat)).toNat (i % ((numStates P.d).toNat : Nat))) (some σ) = some r := by
    unfold propagate at hp ⊢
    rw [if_neg (by simp)] at hp ⊢
    simp only [Option.bind_eq_bind, Option.bind_eq_some_iff] at hp ⊢
    obtain ⟨b, hb, o, hoo, f, hf, l, hl, st, hst, fl, hfl, hr⟩ := hp
    refine ⟨.number ((worstDirectionStdev (fun _ _ => some 0) 2 fun i j => fl (i * (2 : Nat) + j)).getD 0 * st), b, hb, o, hoo, f, hf, l, hl, st, hst, fl, hfl, ?_⟩
    rw [if_neg (by decide), if_neg (by decide), if_pos trivial]
    unfold worstDirectionStdev
    split_ifs <;> rfl
  obtain ⟨-, h0, -⟩ := (propagate_succeeds_iff C hC (fun _ _ => some 0) "worstdirection-stdev" _ ok idx out ho 2 (by omega) _ (some σ) (by simp)).1 hsome
  obtain ⟨k1, k2, u, hu, k3⟩ := worst_direction_reported C hC eigsh he _ ok idx out ho (hr.solved out ho) 2 (by omega) _ σ hσ w hp μ noise hr.white step (s1 out ho)
  have e : ∀ (u : Fin 2 → ℝ) ω, along (P.ctx (bPacked P)).d (fun i => F (i / ((numStates P.d).toNat : Nat)).toNat (i % ((numStates P.d).toNat : Nat))) u (step ω) = u 0 * δ ω 0 + u 1 * δ ω 1 := by
    intro u ω
    unfold along
    rw [Fin.sum_univ_two]
    erw [delta_eq L hL P hP h0 method icam atinfinity p hreg hrot F hF (step ω) (δ ω) (s2 ω) 0 (by omega),
      delta_eq L hL P hP h0 method icam atinfinity p hreg hrot F hF (step ω) (δ ω) (s2 ω) 1 (by omega)]
  simp only [e] at k2 k3
  refine ⟨k1, fun ux uy hu => ?_, u 0, u 1, ?_, k3⟩
  · have := k2 ![ux, uy] (by simp [dotProduct, Fin.sum_univ_two]; linarith)
    simpa using this
  · simpa [dotProduct, Fin.sum_univ_two, pow_two] using hu

/-- **C81** (rms). The square of the reported number is the mean of the variances of the pixel along x and y -/
theorem uncertainty_rms (L : Lapack) (hL : LapackOk L) (C : Cholmod) (hC : CholmodOk C) (eigsh : Eigsh) (P : Problem) (hP : Solved P) (method : String) (icam : Int)
    (atinfinity : Bool) (p : P3) (hreg : Cam.LensRegular P.d.lens (intrOf P.d P.seed icam) p) (hrot : method ≠ "cross-reprojection-ccp" → PosesOk P icam) (σ : ℝ) (hσ : 0 ≤ σ) (w : ℝ)
    (h : projectionUncertainty L C eigsh P icam method atinfinity "rms-stdev" (some σ) p = some (.number w))
    {Ω : Type} [MeasurableSpace Ω] (μ : Measure Ω) (noise δ : Ω → Nat → ℝ) (hr : Redone P method icam atinfinity p σ μ noise δ) :
    0 ≤ w ∧ w ^ 2 = (∫ ω, δ ω 0 ^ 2 ∂μ + ∫ ω, δ ω 1 ^ 2 ∂μ) / 2 := by
  obtain ⟨F, hF, hp⟩ := unc_some h
  obtain ⟨out, ho⟩ := callback_some hp
  have ok := hP.ctx (bPacked P)
  have idx := problem_idx P hP.valid (bPacked P)
  obtain ⟨-, h0, -⟩ := (propagate_succeeds_iff C hC eigsh "rms-stdev" _ ok idx out ho 2 (by omega) _ (some σ) (by intro h; simp at h)).1 ⟨_, hp⟩
  obtain ⟨step, s1, s2⟩ := hr.redone
  obtain ⟨k1, k2⟩ := rms_stdev C hC eigsh _ ok idx out ho (hr.solved out ho) 2 (by omega) _ σ hσ w hp μ noise hr.white step (s1 out ho) 1 (by simp)
  have e : ∀ (u : Fin 2 → ℝ) ω, along (P.ctx (bPacked P)).d (fun i => F (i / ((numStates P.d).toNat : Nat)).toNat (i % ((numStates P.d).toNat : Nat))) u (step ω) = u 0 * δ ω 0 + u 1 * δ ω 1 := by
    intro u ω
    unfold along
    rw [Fin.sum_univ_two]
    erw [delta_eq L hL P hP h0 method icam atinfinity p hreg hrot F hF (step ω) (δ ω) (s2 ω) 0 (by omega),
      delta_eq L hL P hP h0 method icam atinfinity p hreg hrot F hF (step ω) (δ ω) (s2 ω) 1 (by omega)]
  simp only [e, Fin.sum_univ_two] at k2
  refine ⟨k1, ?_⟩
  rw [k2]
  simp [Matrix.one_apply]

end Mrcal.ProjUnc
